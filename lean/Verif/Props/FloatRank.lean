import Verif.Lemmas.FloatRank
import Verif.Props.GraphQsc
import Verif.Props.HigherTier

/-!
# C86: rank scores of graphs with floating-point numbers

`C66` and `C67` are about scores that are computed exactly. The program computes with `f64`. Here, every
operation is followed by rounding; the only thing that is assumed about rounding is `Accurate`, which the
rounding of IEEE 754 fulfils (`C86_rounding`).
-/

namespace FA.FloatRank
open FA Spec Graph
open FA.Ranking (err err_step err_nonneg err_le uu vv uu_nonneg vv_nonneg vv_small vv_le)

variable {rnd : ℚ → ℚ} {g : Graph} {D : ℕ}

theorem roundPos_err {x : ℚ} (hx : 0 < x) :
    0 ≤ F64.roundPos x ∧ |F64.roundPos x - x| ≤ x / 2 ^ 53 := by
  obtain ⟨h1, -⟩ := F64.exponent_spec hx
  unfold F64.roundPos
  dsimp only
  set u := F64.pow2 (F64.exponent x - 52) with hu
  have hu0 : 0 < u := F64.pow2_pos _
  refine ⟨mul_nonneg ?_ hu0.le, ?_⟩
  · exact_mod_cast F64.nearestInt_nonneg (div_nonneg hx.le hu0.le)
  · have e1 : (F64.nearestInt (x / u) : ℚ) * u - x = ((F64.nearestInt (x / u) : ℚ) - x / u) * u := by
      rw [sub_mul, div_mul_cancel₀ _ hu0.ne']
    rw [e1, abs_mul, abs_of_pos hu0]
    have h2 := mul_le_mul_of_nonneg_right (F64.nearestInt_half (x / u)) hu0.le
    have e2 : u / 2 = F64.pow2 (F64.exponent x) / 2 ^ 53 := by
      rw [hu, F64.pow2_half, F64.pow2_eq, F64.pow2_eq, eq_div_iff (by positivity),
        ← zpow_natCast, ← zpow_add₀ (by norm_num)]
      congr 1; push_cast; ring
    have e3 : F64.pow2 (F64.exponent x) / 2 ^ 53 ≤ x / 2 ^ 53 :=
      div_le_div_of_nonneg_right h1 (by positivity)
    linarith

/-- The mean of the scores, as computed. -/
theorem mean_err (hr : Accurate rnd) (hg : Moderate g D) (hn : g.outlinks ≠ []) {k : ℕ}
    (hk : k ≤ max (2 * g.outlinks.length) 1000) {sc : List ℚ} (h : After g D k sc) :
    |rnd (rsum rnd 0 sc / g.outlinks.length) -
        (∑ j ∈ Finset.range g.outlinks.length, ranks g k j) / g.outlinks.length| ≤
      rankError D k + 14 * uu := by
  have hpos : (1 : ℚ) ≤ g.outlinks.length := by
    exact_mod_cast List.length_pos_iff.2 hn
  have hu := uu_nonneg
  have hv := vv_nonneg
  have hvs : vv ≤ uu / 4 := by
    have := vv_small' (n := 1) (D := 1) (by norm_num) (by norm_num)
    push_cast at this
    linarith
  have hsc : sc.sum = ∑ j ∈ Finset.range g.outlinks.length, sc.getD j 0 := by
    have : sc = (List.range g.outlinks.length).map (fun j => sc.getD j 0) := by
      apply List.ext_getElem?
      intro j
      by_cases hj : j < g.outlinks.length
      · have hj' : j < sc.length := by rw [h.length]; exact hj
        simp [hj, hj']
      · rw [List.getElem?_eq_none (by rw [h.length]; omega),
          List.getElem?_eq_none (by simpa using hj)]
    conv_lhs => rw [this]
    rfl
  have hsum2 := h.sum_le hg hk
  have hsum0 : 0 ≤ sc.sum := by
    rw [hsc]; exact Finset.sum_nonneg fun j _ => h.nonneg j
  obtain ⟨r0, r1⟩ := rsum_err hr id (fun a a0 a2 => ⟨a0, by
      rw [id, sub_self, abs_zero]; exact add_nonneg (mul_nonneg a0 hu) hv⟩) sc (by rw [h.length]; exact hg.nodes)
    (fun a ha => by
      obtain ⟨i, hi, rfl⟩ := List.getElem_of_mem ha
      have := h.nonneg i
      simpa [hi] using this) (by rw [hsc]; exact hsum2)
  rw [List.map_id, h.length] at r1
  rw [List.map_id] at r0
  have hE : err uu vv g.outlinks.length sc.sum ≤ 4 * (g.outlinks.length + 1) * uu + uu := by
    refine le_trans (err_le hg.nodes hsum0) ?_
    rw [← hsc] at hsum2
    have e1 : 2 * ((g.outlinks.length : ℚ) + 1) * uu * sc.sum ≤
        2 * ((g.outlinks.length : ℚ) + 1) * uu * 2 :=
      mul_le_mul_of_nonneg_left hsum2 (mul_nonneg (by positivity) hu)
    have e2 := vv_small' (n := 1) (D := g.outlinks.length) (by norm_num) hg.nodes
    push_cast at e2
    linarith
  have hEs := err_small hg.nodes hsum0 (by rw [hsc]; exact hsum2)
  set N : ℚ := (g.outlinks.length : ℚ) with hN
  set R := rsum rnd 0 sc with hR
  set S := ∑ j ∈ Finset.range g.outlinks.length, ranks g k j with hS
  have hd : |sc.sum - S| ≤ rankError D k := by
    rw [hsc, hS, ← Finset.sum_sub_distrib]
    exact le_trans (Finset.abs_sum_le_sum_abs _ _) h.total
  have hRS : |R / N - S / N| ≤ rankError D k + 9 * uu := by
    have e1 : R / N - S / N = ((R - sc.sum) + (sc.sum - S)) / N := by ring
    rw [e1, abs_div, abs_of_nonneg (show 0 ≤ N by linarith), div_le_iff₀ (by linarith)]
    refine le_trans (abs_add_le _ _) ?_
    have e2 : 0 ≤ rankError D k := by
      rw [rankError_eq]; have := stepError_nonneg D; positivity
    have e3 : rankError D k ≤ rankError D k * N := le_mul_of_one_le_right e2 hpos
    have e4 : uu ≤ uu * N := le_mul_of_one_le_right hu hpos
    rw [add_mul]
    linarith
  have hR3 : R ≤ 3 := by
    have := (abs_le.1 r1).2
    rw [← hsc] at hsum2
    linarith
  have hRN0 : 0 ≤ R / N := div_nonneg r0 (by linarith)
  have hRN : R / N ≤ 3 := le_trans (div_le_self r0 hpos) hR3
  have hlast := near' hr hRN0 (by linarith)
  have e5 : R / N * uu ≤ 3 * uu := mul_le_mul_of_nonneg_right hRN hu
  refine le_trans (abs_sub_le _ (R / N) _) ?_
  linarith

end FA.FloatRank

namespace FA.Props
open FA Spec Graph FloatRank
open FA.Ranking (uu vv uu_nonneg vv_nonneg)

/-- C86: the rounding of IEEE 754, rounding without limits for exponents (as used in `C41` and `C67`), and
exact arithmetic have the assumed property. Numbers of moderate size are never rounded to infinity. -/
theorem C86_rounding :
    Accurate (fun x => (F64.finite x).getD 0) ∧ (∀ x, |x| ≤ 4 → F64.finite x ≠ none) ∧
      Accurate F64.round ∧ Accurate id := by
  have v0 : (0 : ℚ) ≤ 1 / 2 ^ 1075 := one_div_nonneg.2 (pow_nonneg (by norm_num) _)
  have hneg : ∀ x : ℚ, x < 0 → F64.finite x = (F64.finite (-x)).map (- ·) := by
    intro x hx
    have h1 : F64.finite x = (F64.finitePos (-x)).map (- ·) := by
      unfold F64.finite; rw [if_neg hx.ne, if_neg (by linarith)]
    have h2 : F64.finite (-x) = F64.finitePos (-x) := by
      unfold F64.finite; rw [if_neg (by linarith), if_pos (by linarith)]
    rw [h1, h2]
  have hfin : ∀ x : ℚ, |x| ≤ 4 → ∃ y, F64.finite x = some y ∧ (0 ≤ x → 0 ≤ y) ∧
      |y - x| ≤ |x| / 2 ^ 53 + 1 / 2 ^ 1075 := by
    intro x hx
    rcases lt_or_ge x 0 with h0 | h0
    · rw [abs_of_neg h0] at hx
      obtain ⟨y, h1, h2, h3⟩ := F64.finite_halfUlp.near (-x) (by linarith) hx
      refine ⟨-y, by rw [hneg x h0, h1]; rfl, fun h => by linarith, ?_⟩
      rw [abs_of_neg h0, ← abs_neg, show -(-y - x) = y - -x by ring]
      exact h3
    · rw [abs_of_nonneg h0] at hx ⊢
      obtain ⟨y, h1, h2, h3⟩ := F64.finite_halfUlp.near x h0 hx
      exact ⟨y, h1, fun _ => h2, h3⟩
  refine ⟨⟨fun x h0 hx => ?_, fun x hx => ?_⟩, fun x hx => ?_, ⟨fun x h0 hx => ?_, fun x hx => ?_⟩,
    ⟨fun x h0 hx => h0, fun x hx => ?_⟩⟩
  · obtain ⟨y, h1, h2, -⟩ := hfin x (by rwa [abs_of_nonneg h0])
    show 0 ≤ (F64.finite x).getD 0
    rw [h1]; exact h2 h0
  · obtain ⟨y, h1, -, h3⟩ := hfin x hx
    show |(F64.finite x).getD 0 - x| ≤ _
    rw [h1]; exact h3
  · obtain ⟨y, h1, -⟩ := hfin x hx
    rw [h1]; exact Option.some_ne_none y
  · unfold F64.round
    split
    · exact le_refl _
    · split
      · rename_i h; exact (roundPos_err h).1
      · rename_i h1 h2; exact absurd (lt_of_le_of_ne h0 (Ne.symm h1)) h2
  · unfold F64.round
    split
    · rename_i h; subst h
      rw [sub_self, abs_zero, zero_div, zero_add]; exact v0
    · split
      · rename_i h
        rw [abs_of_pos h]
        exact le_trans (roundPos_err h).2 (le_add_of_nonneg_right v0)
      · rename_i h1 h2
        have h3 : x < 0 := lt_of_le_of_ne (not_lt.1 h2) h1
        rw [abs_of_neg h3, ← abs_neg, show -(-F64.roundPos (-x) - x) = F64.roundPos (-x) - -x by ring]
        exact le_trans (roundPos_err (by linarith)).2 (le_add_of_nonneg_right v0)
  · rw [id, sub_self, abs_zero]
    exact add_nonneg (by positivity) v0

/-- C86: every graph with up to `2^24` nodes whose nodes do not have two links to the same node is small
enough for what follows. -/
theorem C86_applies (g : Graph) (hg : LinksInRange g) (hn : g.outlinks.length ≤ 2 ^ 24)
    (hd : ∀ l ∈ g.outlinks, l.Nodup) : Moderate g g.outlinks.length where
  range := hg
  links := by
    intro j _
    unfold linksInto
    have : ∀ o : List (List NodeId), (∀ l ∈ o, l.Nodup) →
        (o.map (fun l => l.count j)).sum ≤ o.length := by
      intro o
      induction o with
      | nil => intro _; simp
      | cons l o ih =>
        intro h
        rw [List.map_cons, List.sum_cons, List.length_cons]
        have h1 := List.nodup_iff_count_le_one.1 (h l List.mem_cons_self) j
        have h2 := ih fun l' hl' => h l' (List.mem_cons_of_mem _ hl')
        omega
    exact this _ hd
  nodes := le_trans hn (by norm_num)
  bound := le_trans hn (by norm_num)
  steps := by
    have h1 : max (2 * g.outlinks.length) 1000 + 1 ≤ 2 ^ 25 + 1 := by
      have : max (2 * g.outlinks.length) 1000 ≤ 2 ^ 25 := max_le (by omega) (by norm_num)
      omega
    exact le_trans (Nat.mul_le_mul h1 (show 5 * (g.outlinks.length + 1) ≤ 5 * (2 ^ 24 + 1) by omega))
      (by norm_num)

/-- C86: computed with floating-point numbers, the scores are the exact ones of some step `k`, up to errors
that add up to no more than `rankError D k`, where `D` is a bound for the number of links into a node. The
number of steps is also the right one up to such errors: unless the maximum number of steps is reached, no
score changes by much more than the limit in step `k`, and in every step before, some score changes by not
much less than the limit. -/
theorem C86_scores (rnd : ℚ → ℚ) (hr : Accurate rnd) (g : Graph) (hn : g.outlinks ≠ []) (D : ℕ)
    (hg : Moderate g D) :
    ∃ sc k, g.getRankScores rnd = .ok sc ∧ sc.length = g.outlinks.length ∧ (∀ x ∈ sc, 0 ≤ x) ∧
      ∑ j ∈ Finset.range g.outlinks.length, |sc.getD j 0 - ranks g k j| ≤ rankError D k ∧
      rankError D k ≤ 1 ∧ 1 ≤ k ∧ k ≤ max (2 * g.outlinks.length) 1000 ∧
      (k = max (2 * g.outlinks.length) 1000 ∨
        Settled g (max (1 / (g.outlinks.length : ℚ) ^ 2) (1 / 100000) + 4 * rankError D k) k) ∧
      ∀ i, 1 ≤ i → i < k →
        ¬ Settled g (max (1 / (g.outlinks.length : ℚ) ^ 2) (1 / 100000) - 4 * rankError D i) i := by
  obtain ⟨sc, k, h1, h2, h3, h4, h5, h6⟩ := getRankScores_spec hr hg hn
  refine ⟨sc, k, h1, h2.length, fun x hx => ?_, h2.total, rankError_small hg h4, h3, h4, h5, h6⟩
  obtain ⟨i, hi, rfl⟩ := List.getElem_of_mem hx
  have := h2.nonneg i
  simpa [hi] using this

/-- C86: the nodes that `GlobalRankQsc` takes for the top tier are those with an above-average exact score
(of the step at which the program stops), except that nodes whose score is the average up to the error may
be decided wrongly. -/
theorem C86_top_tier (rnd : ℚ → ℚ) (hr : Accurate rnd) (g : Graph) (hn : g.outlinks ≠ []) (D : ℕ)
    (hg : Moderate g D) :
    ∃ sc k T, g.getRankScores rnd = .ok sc ∧
      ∑ j ∈ Finset.range g.outlinks.length, |sc.getD j 0 - ranks g k j| ≤ rankError D k ∧
      1 ≤ k ∧ k ≤ max (2 * g.outlinks.length) 1000 ∧
      Qsc.topTierNodes rnd g = .ok T ∧ T.Pairwise (· < ·) ∧
      (∀ j ∈ T, j < g.outlinks.length) ∧
      ∀ j < g.outlinks.length,
        ((∑ i ∈ Finset.range g.outlinks.length, ranks g k i) / g.outlinks.length + 4 * rankError D k <
          ranks g k j → j ∈ T) ∧
        (ranks g k j <
          (∑ i ∈ Finset.range g.outlinks.length, ranks g k i) / g.outlinks.length - 4 * rankError D k →
          j ∉ T) := by
  obtain ⟨sc, k, h1, h2, h3, h4, -, -⟩ := getRankScores_spec hr hg hn
  have hm : ∃ l, mapE (fun i => getE sc i) (rangeFT 0 g.outlinks.length) = .ok l := by
    refine ⟨_, mapE_ok (h := fun i => sc.getD i 0) fun i hi => ?_⟩
    rw [mem_rangeFT, ← h2.length] at hi
    unfold getE
    rw [List.getElem?_eq_getElem hi.2]
    simp [hi.2]
  obtain ⟨l, hl⟩ := hm
  have hmean := abs_le.1 (mean_err hr hg hn h4 h2)
  have hbig : 10 * uu ≤ rankError D k := by
    rw [rankError_eq]
    unfold stepError
    have hu := uu_nonneg
    have hk1 : (1 : ℚ) ≤ k := by exact_mod_cast h3
    have e1 : 1 * uu ≤ k * uu := mul_le_mul_of_nonneg_right hk1 hu
    have e2 : 0 ≤ (D : ℚ) * uu := by positivity
    have e3 : 0 ≤ (k : ℚ) * D * uu := by positivity
    linarith
  refine ⟨sc, k, (rangeFT 0 g.outlinks.length).filter (fun i =>
    rnd (rsum rnd 0 sc / g.outlinks.length) < sc.getD i 0), h1, h2.total, h3, h4, ?_,
    (sorted_rangeFT _ _).filter _, fun j hj => ?_, fun j hj => ⟨fun h => ?_, fun h hc => ?_⟩⟩
  · unfold Qsc.topTierNodes
    dsimp only
    rw [h1]
    dsimp only
    rw [hl]
    rfl
  · exact ((mem_rangeFT).1 (List.mem_filter.1 hj).1).2
  · have e := abs_le.1 (h2.each hj)
    rw [List.mem_filter, mem_rangeFT, decide_eq_true_eq]
    exact ⟨⟨Nat.zero_le _, hj⟩, by linarith [e.1, hmean.2]⟩
  · have e := abs_le.1 (h2.each hj)
    rw [List.mem_filter, decide_eq_true_eq] at hc
    linarith [e.2, hmean.1, hc.2]

/-- C86: `HigherTierNeighborsQsc` sorts the neighbours of `x` by their exact scores (of the step at which
the program stops), except that neighbours whose score is twice or half the score of `x` up to the error
may be decided wrongly. -/
theorem C86_tierness (rnd : ℚ → ℚ) (hr : Accurate rnd) (g : Graph) (D : ℕ) (hg : Moderate g D)
    (x : NodeId) (hx : x < g.outlinks.length) :
    ∃ sc k hi sa lo, g.getRankScores rnd = .ok sc ∧
      ∑ j ∈ Finset.range g.outlinks.length, |sc.getD j 0 - ranks g k j| ≤ rankError D k ∧
      1 ≤ k ∧ k ≤ max (2 * g.outlinks.length) 1000 ∧
      Qsc.neighborsByTierness g sc x = .ok (hi, sa, lo) ∧
      ∀ y, Link g x y →
        (2 * ranks g k x + 3 * rankError D k < ranks g k y → y ∈ hi ∧ y ∉ sa ∧ y ∉ lo) ∧
        (ranks g k y + 3 * rankError D k < 2 * ranks g k x →
          2 * ranks g k y + 3 * rankError D k < ranks g k x → y ∈ lo ∧ y ∉ hi ∧ y ∉ sa) ∧
        (ranks g k y + 3 * rankError D k < 2 * ranks g k x →
          ranks g k x + 3 * rankError D k < 2 * ranks g k y → y ∈ sa ∧ y ∉ hi ∧ y ∉ lo) := by
  have hn : g.outlinks ≠ [] := List.ne_nil_of_length_pos (Nat.lt_of_le_of_lt (Nat.zero_le _) hx)
  obtain ⟨sc, k, h1, h2, h3, h4, -, -⟩ := getRankScores_spec hr hg hn
  obtain ⟨hi, sa, lo, t1, -, t2, t3, t4⟩ := C68_tierness g hg.range sc h2.length x hx
  refine ⟨sc, k, hi, sa, lo, h1, h2.total, h3, h4, t1, fun y hl => ?_⟩
  have ex := abs_le.1 (h2.each hx)
  have ey := abs_le.1 (h2.each (hg.range x y hl))
  have x1 := ex.1
  have x2 := ex.2
  have y1 := ey.1
  have y2 := ey.2
  rw [t2, t3, t4]
  refine ⟨fun h => ?_, fun h h' => ?_, fun h h' => ?_⟩
  · refine ⟨⟨hl, by linarith⟩, fun hc => ?_, fun hc => ?_⟩
    · linarith [hc.2.1]
    · linarith [hc.2.1]
  · refine ⟨⟨hl, by linarith, by linarith⟩, fun hc => ?_, fun hc => ?_⟩
    · linarith [hc.2]
    · linarith [hc.2.2]
  · refine ⟨⟨hl, by linarith, by linarith⟩, fun hc => ?_, fun hc => ?_⟩
    · linarith [hc.2]
    · linarith [hc.2.2]

/-- Node 0 has links to all others, nodes 1 and 3 link to 0 and 2, and 2 links to 0. -/
def thirds : Graph := ⟨[[1, 2, 3], [0, 2], [0], [0, 2]]⟩

theorem thirds_inRange : LinksInRange thirds := by
  rintro i j ⟨l, hl, hj⟩
  have : ∀ l ∈ thirds.outlinks, ∀ j ∈ l, j < thirds.outlinks.length := by decide
  exact this l (List.mem_of_getElem? hl) j hj

/-- C86: the errors are real: with `f64`, the scores of `thirds` are not the exact ones of any step. (See
`C67_counterexample` for a graph where the "top tier" differs.) -/
theorem C86_counterexample :
    thirds.getRankScores F64.round = .ok [3752999689475413 / 2 ^ 53, 2501999792983609 / 2 ^ 54,
      5504399544563939 / 2 ^ 54, 2501999792983609 / 2 ^ 54] ∧
    ∀ k, (List.range 4).map (ranks thirds k) ≠ [3752999689475413 / 2 ^ 53, 2501999792983609 / 2 ^ 54,
      5504399544563939 / 2 ^ 54, 2501999792983609 / 2 ^ 54] := by
  refine ⟨Ref.ok_of (by decide +kernel), fun k h => ?_⟩
  -- the exact scores add up to one
  have hall : ∀ i < thirds.outlinks.length, outDegree thirds i ≠ 0 := by decide
  have hsum : ∑ j ∈ Finset.range thirds.outlinks.length, ranks thirds k j = 1 := by
    clear h
    induction k with
    | zero => exact sum_ranks_zero (by decide)
    | succ k ih => rw [sum_ranks_eq thirds_inRange hall]; exact ih
  have h2 : ((List.range 4).map (ranks thirds k)).sum = 1 := hsum
  rw [h] at h2
  norm_num at h2

/-- Concrete case of `C86_scores` and `C86_top_tier`: the rounding is that of IEEE 754, and up to 4 links
lead to a node. -/
example : Accurate (fun x => (F64.finite x).getD 0) ∧ Accurate F64.round ∧ thirds.outlinks ≠ [] ∧
    Moderate thirds 4 ∧ rankError 4 1000 < 1 / 10 ^ 11 ∧
    Qsc.topTierNodes F64.round thirds = .ok [0, 2] :=
  ⟨C86_rounding.1, C86_rounding.2.2.1, by decide,
    C86_applies thirds thirds_inRange (by decide) (by decide), by unfold rankError; norm_num,
    Ref.ok_of (by decide +kernel)⟩

/-- Concrete case of `C86_top_tier`: the decision for node 0 is right whichever accurate rounding is used,
and in whatever step the program stops, since its score is never close to the average. -/
example (rnd : ℚ → ℚ) (hr : Accurate rnd) : ∃ T, Qsc.topTierNodes rnd thirds = .ok T ∧ 0 ∈ T := by
  obtain ⟨sc, k, T, -, -, h1, h2, h3, -, -, h4⟩ := C86_top_tier rnd hr thirds (by decide) 4
    (C86_applies thirds thirds_inRange (by decide) (by decide))
  refine ⟨T, h3, (h4 0 (by decide)).1 ?_⟩
  have hk : k ≤ 1000 := h2
  have hk' : (k : ℚ) ≤ 1000 := by exact_mod_cast hk
  have herr : rankError 4 k ≤ 1 / 100 := by
    unfold rankError
    rw [div_le_iff₀ (by norm_num)]
    push_cast
    have : ((k : ℚ) + 1) * (5 * (4 + 1)) ≤ (1000 + 1) * (5 * (4 + 1)) := by linarith
    exact le_trans this (by norm_num)
  obtain ⟨k, rfl⟩ : ∃ k', k = k' + 1 := ⟨k - 1, by omega⟩
  have hstep : ∀ s : ℕ → ℚ, rankStep thirds s 0 = s 1 / 2 + s 2 + s 3 / 2 ∧
      rankStep thirds s 1 = s 0 / 3 ∧ rankStep thirds s 2 = s 0 / 3 + s 1 / 2 + s 3 / 2 ∧
      rankStep thirds s 3 = s 0 / 3 := by
    intro s
    refine ⟨?_, ?_, ?_, ?_⟩ <;>
    · show ∑ i ∈ Finset.range 4, _ = _
      simp [Finset.sum_range_succ, linkCount, outDegree, thirds]
      try ring
  -- the score of node 0 stays above 5/12
  have key : ∀ k, ranks thirds (k + 1) 0 + ranks thirds (k + 1) 1 + ranks thirds (k + 1) 2 +
      ranks thirds (k + 1) 3 = 1 ∧ 5 / 12 ≤ ranks thirds (k + 1) 0 ∧
      ranks thirds (k + 1) 1 = ranks thirds (k + 1) 3 ∧
      ranks thirds (k + 1) 0 + ranks thirds (k + 1) 1 ≤ 7 / 12 ∧
      5 / 12 ≤ ranks thirds (k + 1) 1 + 2 / 3 * ranks thirds (k + 1) 0 := by
    intro k
    induction k with
    | zero =>
      obtain ⟨a, b, c, d⟩ := hstep (ranks thirds 0)
      have e : ∀ j, ranks thirds 0 j = 1 / 4 := fun j => by simp [ranks, thirds]
      simp only [e] at a b c d
      show rankStep thirds (ranks thirds 0) 0 + rankStep thirds (ranks thirds 0) 1 +
        rankStep thirds (ranks thirds 0) 2 + rankStep thirds (ranks thirds 0) 3 = 1 ∧
        5 / 12 ≤ rankStep thirds (ranks thirds 0) 0 ∧
        rankStep thirds (ranks thirds 0) 1 = rankStep thirds (ranks thirds 0) 3 ∧
        rankStep thirds (ranks thirds 0) 0 + rankStep thirds (ranks thirds 0) 1 ≤ 7 / 12 ∧
        5 / 12 ≤ rankStep thirds (ranks thirds 0) 1 + 2 / 3 * rankStep thirds (ranks thirds 0) 0
      rw [a, b, c, d]
      norm_num
    | succ k ih =>
      obtain ⟨a, b, c, d⟩ := hstep (ranks thirds (k + 1))
      show rankStep thirds (ranks thirds (k + 1)) 0 + rankStep thirds (ranks thirds (k + 1)) 1 +
        rankStep thirds (ranks thirds (k + 1)) 2 + rankStep thirds (ranks thirds (k + 1)) 3 = 1 ∧
        5 / 12 ≤ rankStep thirds (ranks thirds (k + 1)) 0 ∧
        rankStep thirds (ranks thirds (k + 1)) 1 = rankStep thirds (ranks thirds (k + 1)) 3 ∧
        rankStep thirds (ranks thirds (k + 1)) 0 + rankStep thirds (ranks thirds (k + 1)) 1 ≤ 7 / 12 ∧
        5 / 12 ≤ rankStep thirds (ranks thirds (k + 1)) 1 +
          2 / 3 * rankStep thirds (ranks thirds (k + 1)) 0
      rw [a, b, c, d]
      obtain ⟨i1, i2, i3, i4, i5⟩ := ih
      refine ⟨?_, ?_, rfl, ?_, ?_⟩ <;> linarith
  have hs : ∑ i ∈ Finset.range thirds.outlinks.length, ranks thirds (k + 1) i = 1 := by
    show ∑ i ∈ Finset.range 4, _ = _
    simp only [Finset.sum_range_succ, Finset.sum_range_zero]
    linarith [(key k).1]
  rw [hs]
  have := (key k).2.1
  show (1 : ℚ) / 4 + 4 * _ < _
  linarith

#print axioms C86_rounding
#print axioms C86_applies
#print axioms C86_scores
#print axioms C86_top_tier
#print axioms C86_tierness
#print axioms C86_counterexample

end FA.Props
