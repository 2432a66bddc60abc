import Verif.Model.Fbas
import Mathlib.Algebra.Order.Field.Rat
import Mathlib.Data.Rat.Floor

/-!
# Graphs: src/simulation/graph.rs

Random choices are made by a source of randomness `Rand` about which only the contract of the `rand`
crate is known. Index accesses are checked (`Panic.outOfBounds`).
-/

namespace FA

/-- `thread_rng` with the methods of the `rand` crate that are used here. Nothing is known about
probabilities, i.e. theorems about all `Rand` hold for all random outcomes. -/
structure Rand where
  /-- state of the generator -/
  State : Type
  /-- `SliceRandom::shuffle` -/
  shuffle : State → List NodeId → List NodeId × State
  shuffle_perm : ∀ s l, (shuffle s l).1.Perm l
  /-- `SliceRandom::choose_weighted` with the given weights; `none` stands for an error -/
  chooseWeighted : State → (NodeId → ℕ) → List NodeId → Option NodeId × State
  chooseWeighted_some : ∀ s w l x, (chooseWeighted s w l).1 = some x → x ∈ l ∧ 0 < w x
  chooseWeighted_none : ∀ s w l, (chooseWeighted s w l).1 = none → ∀ x ∈ l, w x = 0
  /-- `SliceRandom::choose` -/
  choose : State → List NodeId → Option NodeId × State
  choose_some : ∀ s l x, (choose s l).1 = some x → x ∈ l
  choose_none : ∀ s l, (choose s l).1 = none → l = []
  /-- `Rng::gen_bool` for a probability between 0 and 1 -/
  genBool : State → ℚ → Bool × State
  genBool_zero : ∀ s, (genBool s 0).1 = false

/-- A `for` loop whose body may panic. -/
def foldE {α β : Type} (g : β → α → Except Panic β) : β → List α → Except Panic β
  | b, [] => .ok b
  | b, a :: l =>
    match g b a with
    | .error e => .error e
    | .ok b' => foldE g b' l

/-- The range `a..b`. -/
def rangeFT (a b : ℕ) : List ℕ := List.range' a (b - a)

/-- `v[i]` -/
def getE {α : Type} (v : List α) (i : ℕ) : Except Panic α :=
  match v[i]? with
  | none => .error .outOfBounds
  | some x => .ok x

/-- `v[i] = g(v[i])` -/
def modifyE {α : Type} (v : List α) (i : ℕ) (g : α → α) : Except Panic (List α) :=
  match v[i]? with
  | none => .error .outOfBounds
  | some x => .ok (v.set i (g x))

/-- `Iterator::all` with a predicate that may panic (stops at the first `false`). -/
def allE {α : Type} (p : α → Except Panic Bool) : List α → Except Panic Bool
  | [] => .ok true
  | a :: l =>
    match p a with
    | .error e => .error e
    | .ok false => .ok false
    | .ok true => allE p l

namespace F64

/-- `2^z` -/
def pow2 : ℤ → ℚ
  | .ofNat n => (2 ^ n : ℕ)
  | .negSucc n => 1 / (2 ^ (n + 1) : ℕ)

/-- The exponent `e` with `2^e ≤ x < 2^(e+1)`, for positive `x`. -/
def exponent (x : ℚ) : ℤ :=
  let e : ℤ := (Nat.log2 x.num.natAbs : ℤ) - Nat.log2 x.den
  if pow2 e ≤ x then e else e - 1

/-- The nearest integer; the even one of two. -/
def nearestInt (x : ℚ) : ℤ :=
  let f : ℤ := ⌊x⌋
  if x - f < 1 / 2 then f
  else if 1 / 2 < x - f then f + 1
  else if f % 2 = 0 then f else f + 1

/-- Rounding a positive number to 53 significant bits. -/
def roundPos (x : ℚ) : ℚ :=
  let u := pow2 (exponent x - 52)
  nearestInt (x / u) * u

/-- Rounding to an `f64`: to the nearest number with 53 significant bits, ties to even. Simplified: no
limits for the exponent. -/
def round (x : ℚ) : ℚ :=
  if x = 0 then 0 else if 0 < x then roundPos x else - roundPos (-x)

end F64

/-- `struct Graph` (src/simulation/graph.rs:9-12): outgoing edges per node. -/
structure Graph where
  outlinks : List (List NodeId)
deriving DecidableEq, Repr

namespace Graph

/-- `new_full_mesh` (src/simulation/graph.rs:19-21). -/
def newFullMesh (n : ℕ) : Graph :=
  ⟨(List.range n).map (fun i => rangeFT 0 i ++ rangeFT (i + 1) n)⟩

/-- `higher_tier_node_ids.last().map_or(0, |x| x + 1)` (src/simulation/graph.rs:30). -/
def nextTierStart (higherTierNodeIds : List NodeId) : ℕ :=
  match higherTierNodeIds.getLast? with
  | none => 0
  | some x => x + 1

/-- The body of the outer loop of `new_tiered_full_mesh` (src/simulation/graph.rs:29-37). The state
consists of the links and the node IDs of the next higher tier. -/
def tierStep (st : List (List NodeId) × List NodeId) (tierSize : ℕ) :
    Except Panic (List (List NodeId) × List NodeId) :=
  let i0 := nextTierStart st.2
  let n := i0 + tierSize
  match foldE (fun o i => modifyE o i (fun l => l ++ st.2 ++ (rangeFT i0 i ++ rangeFT (i + 1) n)))
      st.1 (rangeFT i0 n) with
  | .error e => .error e
  | .ok o => .ok (o, rangeFT i0 n)

/-- `new_tiered_full_mesh` (src/simulation/graph.rs:26-39). -/
def newTieredFullMesh (tierSizes : List ℕ) : Except Panic Graph :=
  match foldE tierStep (List.replicate tierSizes.sum [], []) tierSizes with
  | .error e => .error e
  | .ok (o, _) => .ok ⟨o⟩

/-- The macro `connect` in `new_random_scale_free` (src/simulation/graph.rs:50-57); the
`debug_assert_ne` is treated like an assertion. -/
def connect (o : List (List NodeId)) (a b : NodeId) : Except Panic (List (List NodeId)) :=
  if a = b then .error .assertion
  else
    match modifyE o a (· ++ [b]) with
    | .error e => .error e
    | .ok o' => modifyE o' b (· ++ [a])

/-- The loops that connect the first `m0` nodes in `new_random_scale_free`
(src/simulation/graph.rs:60-64). -/
def scaleFreeInit (m0 : ℕ) (o : List (List NodeId)) : Except Panic (List (List NodeId)) :=
  foldE (fun o i => foldE (fun o j => connect o i j) o (rangeFT (i + 1) m0)) o (rangeFT 0 m0)

/-- The loop over `0..m` in `new_random_scale_free` (src/simulation/graph.rs:69-77); arguments: the
remaining number of iterations, links, possible targets, and the state of the generator. -/
def scaleFreeLinks (R : Rand) (i : NodeId) :
    ℕ → List (List NodeId) × List NodeId × R.State →
      Except Panic (List (List NodeId) × R.State)
  | 0, (o, _, s) => .ok (o, s)
  | k + 1, (o, targets, s) =>
    match R.chooseWeighted s (fun x => (o.getD x []).length) targets with
    | (none, _) => .error .unwrapNone
    | (some j, s') =>
      match connect o i j with
      | .error e => .error e
      | .ok o' => scaleFreeLinks R i k (o', targets.filter (fun x => x ≠ j), s')

/-- The inner condition of `is_undirected` (src/simulation/graph.rs:171-178). -/
def isUndirected (g : Graph) : Except Panic Bool :=
  allE (fun p => allE (fun j =>
    match getE g.outlinks j with
    | .error e => .error e
    | .ok consJ => .ok (consJ.any (fun x => x == p.2))) p.1) g.outlinks.zipIdx

/-- `debug_assert!(result.is_undirected())` (src/simulation/graph.rs:80, 148), treated like an
assertion. -/
def assertUndirected (g : Graph) : Except Panic Graph :=
  match g.isUndirected with
  | .error e => .error e
  | .ok true => .ok g
  | .ok false => .error .assertion

/-- `new_random_scale_free` (src/simulation/graph.rs:41-82). -/
def newRandomScaleFree (R : Rand) (s : R.State) (n m0 m : ℕ) : Except Panic (Graph × R.State) :=
  if 0 < m ∧ m ≤ m0 ∧ m ≤ n then
    match scaleFreeInit m0 (List.replicate n []) with
    | .error e => .error e
    | .ok o =>
      match foldE (fun (st : List (List NodeId) × R.State) i =>
          scaleFreeLinks R i m (st.1, rangeFT 0 i, st.2)) (o, s) (rangeFT m0 n) with
      | .error e => .error e
      | .ok (o', s') =>
        match assertUndirected ⟨o'⟩ with
        | .error e => .error e
        | .ok g => .ok (g, s')
  else .error .assertion

/-! ### Small world graphs -/

/-- `matrix[i][j] = b` -/
def setM (m : List (List Bool)) (i j : ℕ) (b : Bool) : Except Panic (List (List Bool)) :=
  match m[i]? with
  | none => .error .outOfBounds
  | some row => if j < row.length then .ok (m.set i (row.set j b)) else .error .outOfBounds

/-- `matrix[i][j]` -/
def getM (m : List (List Bool)) (i j : ℕ) : Except Panic Bool :=
  match getE m i with
  | .error e => .error e
  | .ok row => getE row j

/-- Both assignments `matrix[i][j] = b; matrix[j][i] = b`. -/
def setSym (m : List (List Bool)) (i j : ℕ) (b : Bool) : Except Panic (List (List Bool)) :=
  match setM m i j b with
  | .error e => .error e
  | .ok m' => setM m' j i b

/-- The nodes `j % n` for `j` in `i + 1..=i + k / 2` (src/simulation/graph.rs:96-97, 117-118). -/
def ringTargets (n k i : ℕ) : List NodeId := (rangeFT (i + 1) (i + k / 2 + 1)).map (· % n)

/-- Step 1, the ring lattice (src/simulation/graph.rs:91-101). -/
def ringLattice (n k : ℕ) : Except Panic (List (List Bool)) :=
  foldE (fun m i => foldE (fun m j => setSym m i j true) m (ringTargets n k i))
    (List.replicate n (List.replicate n false)) (rangeFT 0 n)

/-- The lists of free end nodes (src/simulation/graph.rs:104-111). -/
def freeTargets (n : ℕ) (m : List (List Bool)) : Except Panic (List (List NodeId)) :=
  mapE (fun i =>
    foldE (fun acc j =>
      if i = j then .ok acc
      else
        match getM m i j with
        | .error e => .error e
        | .ok true => .ok acc
        | .ok false =>
          match getM m j i with
          | .error e => .error e
          | .ok true => .ok acc
          | .ok false => .ok (acc ++ [j])) [] (rangeFT 0 n)) (rangeFT 0 n)

/-- The state of the rewiring: matrix, free end nodes, generator. -/
structure Rewiring (R : Rand) where
  matrix : List (List Bool)
  targets : List (List NodeId)
  rng : R.State

/-- Selecting the links of node `i` that will be rewired (src/simulation/graph.rs:117-122). -/
def selectRewired (R : Rand) (m : List (List Bool)) (beta : ℚ) (i : ℕ) (js : List NodeId)
    (s : R.State) : Except Panic (List NodeId × R.State) :=
  foldE (fun (st : List NodeId × R.State) j =>
    match getM m i j with
    | .error e => .error e
    | .ok false => .ok st
    | .ok true =>
      match R.genBool st.2 beta with
      | (true, s') => .ok (st.1 ++ [j], s')
      | (false, s') => .ok (st.1, s')) ([], s) js

/-- Rewiring the link between `i` and `j` (src/simulation/graph.rs:124-135). -/
def rewireOne (R : Rand) (i : ℕ) (st : Rewiring R) (j : NodeId) : Except Panic (Rewiring R) :=
  match getE st.targets i with
  | .error e => .error e
  | .ok ti =>
    match R.choose st.rng ti with
    | (none, s') => .ok { st with rng := s' }
    | (some newj, s') =>
      match setSym st.matrix i j false with
      | .error e => .error e
      | .ok m1 =>
        match setSym m1 i newj true with
        | .error e => .error e
        | .ok m2 =>
          match modifyE st.targets i (· ++ [j]) with
          | .error e => .error e
          | .ok t1 =>
            match modifyE t1 j (· ++ [i]) with
            | .error e => .error e
            | .ok t2 =>
              match modifyE t2 i (fun l => l.filter (fun x => x ≠ newj)) with
              | .error e => .error e
              | .ok t3 =>
                match modifyE t3 newj (fun l => l.filter (fun x => x ≠ i)) with
                | .error e => .error e
                | .ok t4 => .ok ⟨m2, t4, s'⟩

/-- The body of the outer loop of step 2 (src/simulation/graph.rs:116-137). -/
def rewireNode (R : Rand) (n k : ℕ) (beta : ℚ) (st : Rewiring R) (i : ℕ) :
    Except Panic (Rewiring R) :=
  match selectRewired R st.matrix beta i (ringTargets n k i) st.rng with
  | .error e => .error e
  | .ok (js, s') => foldE (rewireOne R i) { st with rng := s' } js

/-- Transforming the matrix to the format of `Graph` (src/simulation/graph.rs:140-147). -/
def matrixToOutlinks (n : ℕ) (m : List (List Bool)) : Except Panic (List (List NodeId)) :=
  mapE (fun i =>
    foldE (fun acc j =>
      match getM m i j with
      | .error e => .error e
      | .ok true => .ok (acc ++ [j])
      | .ok false => .ok acc) [] (rangeFT 0 n)) (rangeFT 0 n)

/-- `new_random_small_world` (src/simulation/graph.rs:85-150). The subtraction `n - k` in the initial
capacity panics if `k > n` (in builds with overflow checks; otherwise the huge capacity does). `beta`
is assumed to be a probability (otherwise `gen_bool` panics). -/
def newRandomSmallWorld (R : Rand) (s : R.State) (n k : ℕ) (beta : ℚ) :
    Except Panic (Graph × R.State) :=
  if k % 2 = 0 then
    match ringLattice n k with
    | .error e => .error e
    | .ok m =>
      if n < k then .error .explicit
      else
        match freeTargets n m with
        | .error e => .error e
        | .ok t =>
          match foldE (rewireNode R n k beta) ⟨m, t, s⟩ (rangeFT 0 n) with
          | .error e => .error e
          | .ok st =>
            match matrixToOutlinks n st.matrix with
            | .error e => .error e
            | .ok o =>
              match assertUndirected ⟨o⟩ with
              | .error e => .error e
              | .ok g => .ok (g, st.rng)
  else .error .assertion

/-! ### Other functions -/

/-- The loop that inverts the permutation in `shuffled` (src/simulation/graph.rs:158-161). -/
def invertPerm (oldToNew : List NodeId) : Except Panic (List NodeId) :=
  foldE (fun v p => modifyE v p.1 (fun _ => p.2)) (List.replicate oldToNew.length 0)
    oldToNew.zipIdx

/-- `self.outlinks[oi].iter().map(|&oj| old_to_new[oj])` (src/simulation/graph.rs:167). -/
def renamedLinks (g : Graph) (oldToNew : List NodeId) (oi : NodeId) :
    Except Panic (List NodeId) :=
  match getE g.outlinks oi with
  | .error e => .error e
  | .ok l => mapE (fun oj => getE oldToNew oj) l

/-- `shuffled` (src/simulation/graph.rs:152-170). -/
def shuffled (R : Rand) (s : R.State) (g : Graph) : Except Panic (Graph × R.State) :=
  let n := g.outlinks.length
  let oldToNew := (R.shuffle s (rangeFT 0 n)).1
  match invertPerm oldToNew with
  | .error e => .error e
  | .ok newToOld =>
    match mapE (renamedLinks g oldToNew) newToOld with
    | .error e => .error e
    | .ok o => .ok (⟨o⟩, (R.shuffle s (rangeFT 0 n)).2)

/-- `number_of_nodes` (src/simulation/graph.rs:179-181). -/
def numberOfNodes (g : Graph) : ℕ := g.outlinks.length

/-- `get_in_degrees` (src/simulation/graph.rs:182-190). -/
def getInDegrees (g : Graph) : Except Panic (List ℕ) :=
  foldE (fun r l => foldE (fun r j => modifyE r j (· + 1)) r l)
    (List.replicate g.outlinks.length 0) g.outlinks

/-- `get_out_degrees` (src/simulation/graph.rs:191-193). -/
def getOutDegrees (g : Graph) : List ℕ := g.outlinks.map List.length

/-- `get_connected_nodes` (src/simulation/graph.rs:195-204). -/
def getConnectedNodes (g : Graph) : NodeSet :=
  g.outlinks.zipIdx.foldl
    (fun r p => if p.1 = [] then r else insert p.2 r ∪ ofList p.1) ∅

/-- One run of the loop of `get_rank_scores` (src/simulation/graph.rs:219-228). Every arithmetic
operation is followed by rounding with `rnd` (`F64.round` for `f64`, `id` for exact arithmetic); the
number of links is assumed to be exact (below `2^53`). -/
def rankRun (rnd : ℚ → ℚ) (g : Graph) (last : List ℚ) : Except Panic (List ℚ) :=
  foldE (fun sc p =>
    foldE (fun sc j => modifyE sc j (fun x => rnd (x + rnd (last.getD p.2 0 / p.1.length)))) sc p.1)
    (List.replicate g.outlinks.length 0) g.outlinks.zipIdx

/-- The loop of `get_rank_scores` (src/simulation/graph.rs:219-235), with the remaining number of
runs. -/
def rankLoop (rnd : ℚ → ℚ) (g : Graph) (epsilon : ℚ) : ℕ → List ℚ → Except Panic (List ℚ)
  | 0, scores => .ok scores
  | k + 1, last =>
    match rankRun rnd g last with
    | .error e => .error e
    | .ok scores =>
      if (scores.zip last).all (fun p => decide (|rnd (p.1 - p.2)| < epsilon)) then .ok scores
      else rankLoop rnd g epsilon k scores

/-- `get_rank_scores` (src/simulation/graph.rs:207-236). For the empty graph, the infinite numbers of
`f64` do not matter. -/
def getRankScores (rnd : ℚ → ℚ) (g : Graph) : Except Panic (List ℚ) :=
  let n := g.outlinks.length
  let startingScore : ℚ := rnd (1 / n)
  rankLoop rnd g (max (rnd (startingScore / n)) (rnd (1 / 100000))) (max (2 * n) 1000)
    (List.replicate n startingScore)

end Graph
end FA
