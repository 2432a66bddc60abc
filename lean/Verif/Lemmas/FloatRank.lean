import Verif.SpecFloatRank
import Verif.Lemmas.Rank
import Verif.Lemmas.Ranking
import Mathlib.Algebra.Order.Group.MinMax

/-!
# Lemmas about rank scores of graphs with floating-point numbers
-/

namespace FA.FloatRank
open FA Spec Graph
open FA.Ranking (err err_step err_nonneg err_le uu vv uu_nonneg vv_nonneg vv_small vv_le)

variable {rnd : ℚ → ℚ} {g : Graph} {D : ℕ}

theorem near (hr : Accurate rnd) {x : ℚ} (hx : |x| ≤ 4) : |rnd x - x| ≤ |x| * uu + vv := by
  have := hr.near x hx
  rwa [uu, mul_one_div]

theorem near' (hr : Accurate rnd) {x : ℚ} (h0 : 0 ≤ x) (hx : x ≤ 4) :
    |rnd x - x| ≤ x * uu + vv := by
  have := near hr (x := x) (by rwa [abs_of_nonneg h0])
  rwa [abs_of_nonneg h0] at this

theorem uu_small : uu ≤ 1 / 2 ^ 20 := by unfold uu; norm_num

theorem err_small {m : ℕ} (hm : m ≤ 2 ^ 32) {A : ℚ} (hA : 0 ≤ A) (h2 : A ≤ 2) :
    err uu vv m A ≤ 1 / 2 := by
  refine le_trans (err_le hm hA) ?_
  have hm' : (m : ℚ) ≤ 2 ^ 32 := by exact_mod_cast hm
  have h1 : 2 * ((m : ℚ) + 1) * uu ≤ 1 / 8 := by
    have : 2 * ((m : ℚ) + 1) * uu ≤ 2 * (2 ^ 32 + 1) * uu :=
      mul_le_mul_of_nonneg_right (by linarith) uu_nonneg
    exact le_trans this (by unfold uu; norm_num)
  have h3 : 2 * ((m : ℚ) + 1) * uu * A ≤ 1 / 8 * 2 :=
    mul_le_mul h1 h2 hA (by norm_num)
  have h4 : 4 * (m : ℚ) * vv ≤ 1 / 8 := by
    have e1 : 4 * (m : ℚ) * vv ≤ 4 * 2 ^ 32 * uu :=
      mul_le_mul (by linarith) vv_le vv_nonneg (by norm_num)
    exact le_trans e1 (by unfold uu; norm_num)
  linarith

/-- Adding up numbers with rounding. -/
theorem rsum_err (hr : Accurate rnd) (h : ℚ → ℚ)
    (hh : ∀ a, 0 ≤ a → a ≤ 2 → 0 ≤ h a ∧ |h a - a| ≤ a * uu + vv) (l : List ℚ)
    (hl : l.length ≤ 2 ^ 32) (h0 : ∀ a ∈ l, 0 ≤ a) (h2 : l.sum ≤ 2) :
    0 ≤ rsum rnd 0 (l.map h) ∧ |rsum rnd 0 (l.map h) - l.sum| ≤ err uu vv l.length l.sum := by
  induction l using List.reverseRecOn with
  | nil => simp [rsum, err]
  | append_singleton l a ih =>
    have hl0 : ∀ b ∈ l, 0 ≤ b := fun b hb => h0 b (List.mem_append_left _ hb)
    have ha : 0 ≤ a := h0 a (by simp)
    have hs0 : 0 ≤ l.sum := List.sum_nonneg hl0
    rw [List.length_append, List.length_singleton] at hl
    rw [List.sum_append, List.sum_singleton] at h2
    obtain ⟨i1, i2⟩ := ih (by omega) hl0 (by linarith)
    obtain ⟨a1, a2⟩ := hh a ha (by linarith)
    have e1 := err_small (m := l.length) (by omega) hs0 (by linarith)
    have e2 := (abs_le.1 i2).2
    have e3 := (abs_le.1 a2).2
    have e4 : a * uu ≤ 2 * (1 / 2 ^ 20) := mul_le_mul (by linarith) uu_small uu_nonneg (by norm_num)
    have e5 : vv ≤ 1 / 2 ^ 20 := le_trans vv_le uu_small
    have hx4 : rsum rnd 0 (l.map h) + h a ≤ 4 := by norm_num at e4 e5; linarith
    have hx0 : 0 ≤ rsum rnd 0 (l.map h) + h a := add_nonneg i1 a1
    rw [List.map_append, rsum_append, List.map_singleton, List.sum_append, List.sum_singleton,
      List.length_append, List.length_singleton]
    exact ⟨hr.nonneg _ hx0 hx4, err_step uu_nonneg vv_nonneg ha i2 a2 (near' hr hx0 hx4)⟩

theorem shares_map (rnd : ℚ → ℚ) (last : List ℚ) (j : NodeId) (ps : List (List NodeId × ℕ)) :
    shares rnd last j ps = (shares id last j ps).map rnd := by
  unfold shares
  rw [List.map_flatMap]
  simp only [List.map_replicate, id]

theorem length_shares (last : List ℚ) (j : NodeId) (g : Graph) :
    (shares id last j g.outlinks.zipIdx).length = linksInto g j := by
  unfold shares linksInto
  rw [List.length_flatMap]
  simp only [List.length_replicate]
  congr 1
  have : g.outlinks.map (fun l => l.count j) =
      (g.outlinks.zipIdx.map Prod.fst).map (fun l => l.count j) := by
    rw [List.zipIdx_map_fst]
  rw [this, List.map_map]
  rfl

theorem shares_nonneg {last : List ℚ} (h : ∀ i, 0 ≤ last.getD i 0) (j : NodeId)
    (ps : List (List NodeId × ℕ)) : ∀ a ∈ shares id last j ps, 0 ≤ a := by
  intro a ha
  unfold shares at ha
  obtain ⟨p, -, hp⟩ := List.mem_flatMap.1 ha
  obtain ⟨-, rfl⟩ := List.mem_replicate.1 hp
  exact div_nonneg (h p.2) (by positivity)

/-- The error that is added by a step. -/
def stepError (D : ℕ) : ℚ := 5 * (D + 1) * uu

theorem stepError_nonneg (D : ℕ) : 0 ≤ stepError D := by
  have := uu_nonneg
  unfold stepError; positivity

theorem rankError_eq (D k : ℕ) : rankError D k = (k + 1) * stepError D := by
  unfold rankError stepError uu; ring

theorem rankError_succ (D k : ℕ) : rankError D (k + 1) = rankError D k + stepError D := by
  rw [rankError_eq, rankError_eq]; push_cast; ring

theorem rankError_small (hg : Moderate g D) {k : ℕ} (hk : k ≤ max (2 * g.outlinks.length) 1000) :
    rankError D k ≤ 1 := by
  unfold rankError
  rw [div_le_one (by norm_num)]
  have := hg.steps
  have h2 : (k + 1) * (5 * (D + 1)) ≤ 2 ^ 53 :=
    le_trans (Nat.mul_le_mul_right _ (by omega)) this
  exact_mod_cast h2

theorem vv_small' {n D : ℕ} (hn : n ≤ 2 ^ 32) (hD : D ≤ 2 ^ 32) : 4 * (D : ℚ) * n * vv ≤ uu := by
  refine le_trans (mul_le_mul_of_nonneg_right ?_ vv_nonneg) (vv_small (n := 2 ^ 32) (le_refl _))
  have hn' : (n : ℚ) ≤ 2 ^ 32 := by exact_mod_cast hn
  have hD' : (D : ℚ) ≤ 2 ^ 32 := by exact_mod_cast hD
  push_cast
  exact mul_le_mul (by linarith) hn' (by positivity) (by positivity)

theorem sum_ranks_le_one (hg : LinksInRange g) (k : ℕ) :
    ∑ j ∈ Finset.range g.outlinks.length, ranks g k j ≤ 1 := by
  induction k with
  | zero =>
    by_cases hn : g.outlinks.length = 0
    · rw [hn]; simp
    · exact (sum_ranks_zero hn).le
  | succ k ih => exact le_trans (sum_ranks_le hg k) ih

theorem sum_step_le (hg : LinksInRange g) {s : ℕ → ℚ} (h : ∀ i < g.outlinks.length, 0 ≤ s i) :
    ∑ j ∈ Finset.range g.outlinks.length, rankStep g s j ≤
      ∑ j ∈ Finset.range g.outlinks.length, s j := by
  rw [sum_rankStep hg]
  refine Finset.sum_le_sum fun i hi => ?_
  split
  · exact h i (Finset.mem_range.1 hi)
  · exact le_refl _

/-- What holds after `k` steps. -/
structure After (g : Graph) (D k : ℕ) (sc : List ℚ) : Prop where
  length : sc.length = g.outlinks.length
  nonneg : ∀ j, 0 ≤ sc.getD j 0
  total : ∑ j ∈ Finset.range g.outlinks.length, |sc.getD j 0 - ranks g k j| ≤ rankError D k

theorem After.sum_le (hg : Moderate g D) {k : ℕ} {sc : List ℚ} (h : After g D k sc)
    (hk : k ≤ max (2 * g.outlinks.length) 1000) :
    ∑ j ∈ Finset.range g.outlinks.length, sc.getD j 0 ≤ 2 := by
  have h1 : ∑ i ∈ Finset.range g.outlinks.length, sc.getD i 0 ≤
      ∑ i ∈ Finset.range g.outlinks.length, (ranks g k i + |sc.getD i 0 - ranks g k i|) :=
    Finset.sum_le_sum (fun i _ => by have := le_abs_self (sc.getD i 0 - ranks g k i); linarith)
  rw [Finset.sum_add_distrib] at h1
  have h2 := sum_ranks_le_one hg.range k
  have h3 := h.total
  have h4 := rankError_small hg hk
  linarith

theorem After.each {k : ℕ} {sc : List ℚ} (h : After g D k sc) {j : ℕ}
    (hj : j < g.outlinks.length) : |sc.getD j 0 - ranks g k j| ≤ rankError D k :=
  le_trans (Finset.single_le_sum (f := fun j => |sc.getD j 0 - ranks g k j|)
    (fun _ _ => abs_nonneg _) (Finset.mem_range.2 hj)) h.total

theorem After.step (hr : Accurate rnd) (hg : Moderate g D) {k : ℕ} {last : List ℚ}
    (hk : k ≤ max (2 * g.outlinks.length) 1000) (h : After g D k last) :
    ∃ sc, g.rankRun rnd last = .ok sc ∧ After g D (k + 1) sc := by
  obtain ⟨sc, h1, h2, h3⟩ := rankRun_spec rnd hg.range last
  refine ⟨sc, h1, ?_⟩
  set S := Finset.range g.outlinks.length with hS
  have htot : ∑ j ∈ S, last.getD j 0 ≤ 2 := h.sum_le hg hk
  set A : ℕ → ℚ := fun j => rankStep g (fun i => last.getD i 0) j with hA
  have hA0 : ∀ j, 0 ≤ A j := fun j => rankStep_nonneg (fun i _ => h.nonneg i) j
  have hAs : ∑ j ∈ S, A j ≤ 2 := le_trans (sum_step_le hg.range (fun i _ => h.nonneg i)) htot
  have hA2 : ∀ j ∈ S, A j ≤ 2 := fun j hj =>
    le_trans (Finset.single_le_sum (f := A) (fun i _ => hA0 i) hj) hAs
  have key : ∀ j ∈ S, 0 ≤ sc.getD j 0 ∧
      |sc.getD j 0 - A j| ≤ 2 * (D + 1) * uu * A j + 4 * D * vv := by
    intro j hj
    have hjn := Finset.mem_range.1 hj
    have hD := hg.links j hjn
    have hlen := length_shares last j g
    have hsum := sum_shares last j g
    have := rsum_err hr rnd (fun a a0 a2 =>
        ⟨hr.nonneg a a0 (by linarith), near' hr a0 (by linarith)⟩)
      (shares id last j g.outlinks.zipIdx) (by rw [hlen]; exact le_trans hD hg.bound)
      (shares_nonneg h.nonneg j _) (by rw [hsum]; exact hA2 j hj)
    rw [hlen, hsum, ← shares_map, ← h3 j hjn] at this
    refine ⟨this.1, le_trans this.2 ?_⟩
    refine le_trans (err_le (le_trans hD hg.bound) (hA0 j)) ?_
    have hD' : (linksInto g j : ℚ) ≤ D := by exact_mod_cast hD
    have hu := uu_nonneg
    have hv := vv_nonneg
    have e1 : 2 * ((linksInto g j : ℚ) + 1) * uu * A j ≤ 2 * ((D : ℚ) + 1) * uu * A j :=
      mul_le_mul_of_nonneg_right (mul_le_mul_of_nonneg_right (by linarith) hu) (hA0 j)
    have e2 : 4 * (linksInto g j : ℚ) * vv ≤ 4 * D * vv :=
      mul_le_mul_of_nonneg_right (by linarith) hv
    linarith
  have e2 : ∑ j ∈ S, |sc.getD j 0 - A j| ≤ stepError D := by
    refine le_trans (Finset.sum_le_sum (fun j hj => (key j hj).2)) ?_
    rw [Finset.sum_add_distrib, ← Finset.mul_sum, Finset.sum_const, nsmul_eq_mul, hS,
      Finset.card_range]
    rw [hS] at hAs
    have hu := uu_nonneg
    have h5 : 2 * ((D : ℚ) + 1) * uu * ∑ j ∈ Finset.range g.outlinks.length, A j ≤
        2 * ((D : ℚ) + 1) * uu * 2 := mul_le_mul_of_nonneg_left hAs (by positivity)
    have h6 := vv_small' hg.nodes hg.bound
    have h7 : 0 ≤ (D : ℚ) * uu := by positivity
    unfold stepError
    linarith
  have e3 : ∑ j ∈ S, |A j - ranks g (k + 1) j| ≤ ∑ i ∈ S, |last.getD i 0 - ranks g k i| := by
    have h5 : ∀ j ∈ S, |A j - ranks g (k + 1) j| ≤
        rankStep g (fun i => |last.getD i 0 - ranks g k i|) j := by
      intro j _
      have : A j - ranks g (k + 1) j =
          ∑ i ∈ Finset.range g.outlinks.length,
            (linkCount g i j : ℚ) * ((last.getD i 0 - ranks g k i) / outDegree g i) := by
        show rankStep g _ j - rankStep g (ranks g k) j = _
        unfold rankStep
        rw [← Finset.sum_sub_distrib]
        exact Finset.sum_congr rfl (fun i _ => by ring)
      rw [this]
      unfold rankStep
      refine le_trans (Finset.abs_sum_le_sum_abs _ _) (Finset.sum_le_sum (fun i _ => ?_))
      rw [abs_mul, abs_div, Nat.abs_cast, Nat.abs_cast]
    exact le_trans (Finset.sum_le_sum h5) (sum_step_le hg.range (fun i _ => abs_nonneg _))
  have e4 : ∑ j ∈ S, |sc.getD j 0 - ranks g (k + 1) j| ≤
      ∑ j ∈ S, (|sc.getD j 0 - A j| + |A j - ranks g (k + 1) j|) :=
    Finset.sum_le_sum (fun j _ => abs_sub_le _ _ _)
  rw [Finset.sum_add_distrib] at e4
  have e5 := h.total
  refine ⟨h2, fun j => ?_, ?_⟩
  · by_cases hj : j < g.outlinks.length
    · exact (key j (Finset.mem_range.2 hj)).1
    · rw [List.getD_eq_getElem?_getD, List.getElem?_eq_none (by omega)]; exact le_refl _
  · rw [rankError_succ]
    rw [hS] at e2 e3 e4
    linarith

theorem After.start (hr : Accurate rnd) (hg : Moderate g D) :
    After g D 0 (List.replicate g.outlinks.length (rnd (1 / g.outlinks.length))) := by
  by_cases hn : g.outlinks.length = 0
  · refine ⟨by simp, fun j => by simp [hn], ?_⟩
    rw [hn, rankError_eq]
    have := stepError_nonneg D
    simp
    linarith
  have hpos : (1 : ℚ) ≤ g.outlinks.length := by exact_mod_cast Nat.pos_of_ne_zero hn
  have h0 : (0 : ℚ) ≤ 1 / g.outlinks.length := by positivity
  have h1 : (1 : ℚ) / g.outlinks.length ≤ 1 := div_le_one_of_le₀ hpos (by positivity)
  have hy0 := hr.nonneg _ h0 (by linarith)
  have hy := near' hr h0 (by linarith)
  refine ⟨by simp, fun j => ?_, ?_⟩
  · rw [List.getD_eq_getElem?_getD, List.getElem?_replicate]
    split
    · exact hy0
    · exact le_refl _
  · have e1 : ∀ j ∈ Finset.range g.outlinks.length,
        |(List.replicate g.outlinks.length (rnd (1 / g.outlinks.length))).getD j 0 - ranks g 0 j| ≤
          1 / g.outlinks.length * uu + vv := by
      intro j hj
      have hj' := Finset.mem_range.1 hj
      rw [List.getD_eq_getElem?_getD, List.getElem?_replicate, if_pos hj']
      exact hy
    refine le_trans (Finset.sum_le_sum e1) ?_
    rw [Finset.sum_const, nsmul_eq_mul, Finset.card_range]
    have e2 : (g.outlinks.length : ℚ) * (1 / g.outlinks.length * uu + vv) =
        uu + g.outlinks.length * vv := by field_simp
    rw [e2, rankError_eq]
    have e3 : (g.outlinks.length : ℚ) * vv ≤ uu := by
      have := vv_small' hg.nodes (D := 1) (by norm_num)
      have h5 : 0 ≤ (g.outlinks.length : ℚ) * vv := mul_nonneg (by positivity) vv_nonneg
      push_cast at this
      linarith
    have hu := uu_nonneg
    have : 0 ≤ (D : ℚ) * uu := by positivity
    unfold stepError
    push_cast
    linarith

/-- The limit for changes that the program works with. -/
theorem limit_err (hr : Accurate rnd) {n : ℕ} (hn : 1 ≤ n) :
    |max (rnd (rnd (1 / n) / n)) (rnd (1 / 100000)) - max (1 / (n : ℚ) ^ 2) (1 / 100000)| ≤
      4 * uu := by
  have hpos : (1 : ℚ) ≤ n := by exact_mod_cast hn
  have hu := uu_nonneg
  have hv := vv_nonneg
  have hvu := vv_le
  have hvs : vv ≤ uu / 4 := by
    have := vv_small' (n := 1) (D := 1) (by norm_num) (by norm_num)
    push_cast at this
    linarith
  have hus := uu_small
  set x : ℚ := 1 / n with hx
  have x0 : 0 ≤ x := by positivity
  have x1 : x ≤ 1 := div_le_one_of_le₀ hpos (by positivity)
  have y0 := hr.nonneg x x0 (by linarith)
  have hy := near' hr x0 (by linarith)
  set y := rnd x with hy'
  have xu : x * uu ≤ uu := mul_le_of_le_one_left hu x1
  have hyx := (abs_le.1 hy)
  have y2 : y ≤ 2 := by linarith [hyx.2]
  have z0 : 0 ≤ y / n := by positivity
  have zy : y / n ≤ y := div_le_self y0 hpos
  have hz := near' hr z0 (by linarith)
  have hzn : |y / n - 1 / (n : ℚ) ^ 2| ≤ uu + vv := by
    have : y / n - 1 / (n : ℚ) ^ 2 = (y - x) / n := by
      rw [hx]; field_simp
    rw [this, abs_div, abs_of_nonneg (show (0 : ℚ) ≤ n by linarith)]
    exact le_trans (div_le_self (abs_nonneg _) hpos) (by linarith)
  have zu : y / n * uu ≤ 3 / 2 * uu := mul_le_mul_of_nonneg_right (by
    have := hyx.2
    have h20 : (1 : ℚ) / 2 ^ 20 ≤ 1 / 4 := by norm_num
    linarith) hu
  have ha : |rnd (y / n) - 1 / (n : ℚ) ^ 2| ≤ 4 * uu := by
    refine le_trans (abs_sub_le _ (y / n) _) ?_
    linarith
  have hb : |rnd (1 / 100000) - 1 / 100000| ≤ 4 * uu := by
    have := near' hr (x := 1 / 100000) (by norm_num) (by norm_num)
    have h2 : (1 : ℚ) / 100000 * uu ≤ uu := mul_le_of_le_one_left hu (by norm_num)
    linarith
  exact le_trans (abs_max_sub_max_le_max _ _ _ _) (max_le ha hb)

/-- The comparison with the limit. -/
theorem change_err (hr : Accurate rnd) {x y a b E : ℚ} (hx : |x - a| ≤ E) (hy : |y - b| ≤ E)
    (hx0 : 0 ≤ x) (hy0 : 0 ≤ y) (hx2 : x ≤ 2) (hy2 : y ≤ 2) :
    |(|rnd (x - y)|) - (|a - b|)| ≤ 2 * E + 3 * uu := by
  have hxy : |x - y| ≤ 2 := abs_le.2 ⟨by linarith, by linarith⟩
  have h1 := near hr (x := x - y) (by linarith)
  have h2 : |x - y| * uu ≤ 2 * uu := mul_le_mul_of_nonneg_right hxy uu_nonneg
  have h3 := vv_le
  refine le_trans (abs_abs_sub_abs_le _ _) ?_
  have e : rnd (x - y) - (a - b) = (rnd (x - y) - (x - y)) + ((x - a) - (y - b)) := by ring
  rw [e]
  refine le_trans (abs_add_le _ _) ?_
  have h4 := abs_sub (x - a) (y - b)
  linarith

theorem loop (hr : Accurate rnd) (hg : Moderate g D) {ε ε' : ℚ} (hε : |ε' - ε| ≤ 4 * uu) (r : ℕ)
    (last : List ℚ) (m : ℕ) (hm : m + r ≤ max (2 * g.outlinks.length) 1000)
    (h : After g D m last) :
    ∃ sc k, g.rankLoop rnd ε' r last = .ok sc ∧ After g D k sc ∧ m ≤ k ∧ k ≤ m + r ∧
      (k = m + r ∨ (m < k ∧ Settled g (ε + 4 * rankError D k) k)) ∧
      ∀ i, m < i → i < k → ¬ Settled g (ε - 4 * rankError D i) i := by
  induction r generalizing last m with
  | zero => exact ⟨last, m, rfl, h, le_refl _, le_refl _, .inl rfl, fun i h1 h2 => by omega⟩
  | succ r ih =>
    obtain ⟨sc, h1, h2⟩ := h.step hr hg (by omega)
    rw [rankLoop, h1]
    dsimp only
    have hle1 := h.sum_le hg (by omega)
    have hle2 := h2.sum_le hg (by omega)
    have hmono : rankError D m ≤ rankError D (m + 1) := by
      rw [rankError_succ]; have := stepError_nonneg D; linarith
    have hbig : 10 * uu ≤ rankError D (m + 1) := by
      rw [rankError_eq]
      unfold stepError
      have hu := uu_nonneg
      have e1 : 0 ≤ (m : ℚ) * uu := by positivity
      have e2 : 0 ≤ (D : ℚ) * uu := by positivity
      have e3 : 0 ≤ (m : ℚ) * D * uu := by positivity
      push_cast
      linarith
    have hone : ∀ {l : List ℚ}, (∀ j, 0 ≤ l.getD j 0) →
        ∑ j ∈ Finset.range g.outlinks.length, l.getD j 0 ≤ 2 → ∀ j < g.outlinks.length,
        l.getD j 0 ≤ 2 := fun hl hs j hj =>
      le_trans (Finset.single_le_sum (f := fun j => List.getD _ j 0) (fun i _ => hl i)
        (Finset.mem_range.2 hj)) hs
    have hc : ∀ j < g.outlinks.length,
        |(|rnd (sc.getD j 0 - last.getD j 0)|) - (|ranks g (m + 1) j - ranks g m j|)| ≤
          2 * rankError D (m + 1) + 3 * uu := fun j hj =>
      change_err hr (h2.each hj) (le_trans (h.each hj) hmono) (h2.nonneg j) (h.nonneg j)
        (hone h2.nonneg hle2 j hj) (hone h.nonneg hle1 j hj)
    have hall := all_zip_iff h2.length h.length (fun a b => decide (|rnd (a - b)| < ε'))
    have hu := uu_nonneg
    have hεl := abs_le.1 hε
    split
    · rename_i hs
      refine ⟨sc, m + 1, rfl, h2, by omega, by omega, .inr ⟨by omega, fun j hj => ?_⟩,
        fun i a b => by omega⟩
      have h3 := of_decide_eq_true (hall.1 hs j hj)
      have h4 := abs_le.1 (hc j hj)
      show |ranks g (m + 1) j - ranks g m j| < _
      linarith [h4.1, hεl.2]
    · rename_i hs
      obtain ⟨sc', k, e1, e2, e3, e4, e5, e6⟩ := ih sc (m + 1) (by omega) h2
      refine ⟨sc', k, e1, e2, by omega, by omega, ?_, fun i a b => ?_⟩
      · rcases e5 with e5 | ⟨e5, e7⟩
        · exact .inl (by omega)
        · exact .inr ⟨by omega, e7⟩
      · by_cases hi : i = m + 1
        · subst hi
          intro hset
          refine hs (hall.2 fun j hj => decide_eq_true ?_)
          have h3 : |ranks g (m + 1) j - ranks g m j| < _ := hset j hj
          have h4 := abs_le.1 (hc j hj)
          linarith [h4.2, hεl.1]
        · exact e6 i (by omega) b

theorem getRankScores_spec (hr : Accurate rnd) (hg : Moderate g D) (hn : g.outlinks ≠ []) :
    ∃ sc k, g.getRankScores rnd = .ok sc ∧ After g D k sc ∧ 1 ≤ k ∧
      k ≤ max (2 * g.outlinks.length) 1000 ∧
      (k = max (2 * g.outlinks.length) 1000 ∨
        Settled g (max (1 / (g.outlinks.length : ℚ) ^ 2) (1 / 100000) + 4 * rankError D k) k) ∧
      ∀ i, 1 ≤ i → i < k →
        ¬ Settled g (max (1 / (g.outlinks.length : ℚ) ^ 2) (1 / 100000) - 4 * rankError D i) i := by
  have hpos : 1 ≤ g.outlinks.length := List.length_pos_iff.2 hn
  obtain ⟨sc, k, h1, h2, h3, h4, h5, h6⟩ := loop hr hg (limit_err hr hpos)
    (max (2 * g.outlinks.length) 1000) _ 0 (by omega) (After.start hr hg)
  rw [Nat.zero_add] at h4 h5
  have hk : 1 ≤ k := by
    rcases h5 with h5 | h5
    · have : 1000 ≤ max (2 * g.outlinks.length) 1000 := le_max_right _ _
      omega
    · omega
  exact ⟨sc, k, h1, h2, hk, h4, h5.imp_right And.right, h6⟩

end FA.FloatRank
