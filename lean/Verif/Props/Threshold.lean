import Verif.Props.GraphQsc
import Verif.SpecThreshold
import Mathlib.Tactic.LinearCombination

/-!
# C81: relative thresholds
-/

namespace FA.Props
open FA Spec

/-! ### Helpers -/

theorem rounds_round (x : ℚ) : RoundsTo x (F64.round x) :=
  ⟨(C41_rounding x).1, (C41_rounding x).2.1, (C41_rounding x).2.2.1⟩

theorem _root_.FA.Spec.RoundsTo.le_int {x y : ℚ} (h : RoundsTo x y) {z : ℤ} (hz : |z| ≤ 2 ^ 53) (hx : x ≤ z) : y ≤ z := by
  have := h.nearest z 0 hz
  rw [zpow_zero, mul_one, abs_of_nonneg (sub_nonneg.2 hx)] at this
  linarith [(abs_le.1 this).2]

theorem _root_.FA.Spec.RoundsTo.int_le {x y : ℚ} (h : RoundsTo x y) {z : ℤ} (hz : |z| ≤ 2 ^ 53) (hx : z ≤ x) : z ≤ y := by
  have := h.nearest z 0 hz
  rw [zpow_zero, mul_one, abs_of_nonpos (sub_nonpos.2 hx)] at this
  linarith [(abs_le.1 this).1]

theorem _root_.FA.Spec.RoundsTo.int_eq {y : ℚ} {z : ℤ} (h : RoundsTo z y) (hz : |z| ≤ 2 ^ 53) : y = z :=
  le_antisymm (h.le_int hz le_rfl) (h.int_le hz le_rfl)

/-- Rounding changes a number by at most a fraction of `2^-53`. -/
theorem _root_.FA.Spec.RoundsTo.relative {x y : ℚ} (h : RoundsTo x y) (hx : 0 ≤ x) : |y - x| ≤ x / 2 ^ 53 := by
  rcases hx.eq_or_lt with rfl | hx
  · have := h.nearest 0 0 (by norm_num)
    simpa using this
  obtain ⟨h1, h2⟩ := F64.exponent_spec hx
  set e := F64.exponent x
  set u : ℚ := 2 ^ (e - 52) with hu
  have hu0 : 0 < u := by positivity
  have hue : F64.pow2 e = u * 2 ^ 52 := by
    rw [F64.pow2_eq, hu, ← zpow_natCast, ← zpow_add₀ (by norm_num)]; congr 1; push_cast; ring
  have hue' : F64.pow2 (e + 1) = u * 2 ^ 53 := by
    rw [F64.pow2_eq, hu, ← zpow_natCast, ← zpow_add₀ (by norm_num)]; congr 1; push_cast; ring
  rw [hue] at h1
  rw [hue'] at h2
  have hf0 : 0 ≤ ⌊x / u⌋ := Int.floor_nonneg.2 (by positivity)
  have hf1 : ⌊x / u⌋ < 2 ^ 53 := by
    rw [Int.floor_lt, div_lt_iff₀ hu0]; push_cast; linarith
  have hlo : (⌊x / u⌋ : ℚ) * u ≤ x := (le_div_iff₀ hu0).1 (Int.floor_le _)
  have hhi : x < ((⌊x / u⌋ : ℚ) + 1) * u := (div_lt_iff₀ hu0).1 (Int.lt_floor_add_one _)
  have n1 := h.nearest ⌊x / u⌋ (e - 52) (by rw [abs_of_nonneg hf0]; omega)
  have n2 := h.nearest (⌊x / u⌋ + 1) (e - 52) (by rw [abs_of_nonneg (by omega)]; omega)
  rw [← hu, abs_of_nonpos (by linarith : (⌊x / u⌋ : ℚ) * u - x ≤ 0)] at n1
  push_cast at n2
  rw [← hu, abs_of_nonneg (by linarith : 0 ≤ ((⌊x / u⌋ : ℚ) + 1) * u - x)] at n2
  have : u / 2 ≤ x / 2 ^ 53 := by
    rw [div_le_div_iff₀ (by norm_num) (by norm_num)]
    norm_num at h1 ⊢
    linarith
  have e1 : ((⌊x / u⌋ : ℚ) + 1) * u = (⌊x / u⌋ : ℚ) * u + u := by ring
  rw [e1] at n2
  linarith

theorem xThreshold_eq {n : ℕ} (hn : n ≤ 2 ^ 53) (x : ℚ) :
    ∃ y, RoundsTo (x * n) y ∧ Qsc.calculateXThreshold n x = max 1 ⌈y⌉.toNat := by
  have h := rounds_round (((n : ℤ) : ℚ))
  have hz : |(n : ℤ)| ≤ 2 ^ 53 := by rw [abs_of_nonneg (by omega)]; exact_mod_cast hn
  have := h.int_eq hz
  refine ⟨_, rounds_round _, ?_⟩
  unfold Qsc.calculateXThreshold
  push_cast at this
  rw [this]

/-! ### Property theorems -/

/-- C81: the threshold that is computed for `n` validators, with and without a relative threshold. -/
theorem C81_threshold (n : ℕ) (rel : Option ℚ) : ThresholdFor rel n (Qsc.calculateThreshold n rel) := by
  cases rel with
  | none =>
    intro u
    change Qsc.calculate67pThreshold n ≤ u ↔ _
    unfold Qsc.calculate67pThreshold
    omega
  | some r =>
    refine ⟨_, _, rounds_round _, rounds_round _, fun u => ?_⟩
    change max 1 ⌈F64.round (r * F64.round n)⌉.toNat ≤ u ↔ _
    rw [max_le_iff, Int.toNat_le, Int.ceil_le]
    simp

/-- C81, for an `f64` between 0 and 1: the computed threshold is `max(1, ceil(nx))`, as documented, or one
less; the latter only if `nx` is larger than an integer by less than rounding can change.

Missing for the full statement: products next to an integer, see `C81_counterexample`. -/
theorem C81_float_partial (n : ℕ) (hn : n ≤ 2 ^ 53) (x : ℚ) (h0 : 0 ≤ x) (h1 : x ≤ 1) :
    let t := Qsc.calculateXThreshold n x
    t = max 1 ⌈x * n⌉.toNat ∨ t + 1 = ⌈x * n⌉.toNat ∧ (t : ℚ) < x * n ∧ x * n ≤ t + n / 2 ^ 53 := by
  obtain ⟨y, hy, ht⟩ := xThreshold_eq hn x
  dsimp only
  rw [ht]
  have hn' : (n : ℚ) ≤ 2 ^ 53 := by exact_mod_cast hn
  have hn0 : (0 : ℚ) ≤ n := by positivity
  have hxn0 : 0 ≤ x * n := by positivity
  have hxn : x * n ≤ n := by nlinarith
  have hc0 : 0 ≤ ⌈x * n⌉ := Int.ceil_nonneg hxn0
  have hc1 : ⌈x * n⌉ ≤ n := Int.ceil_le.2 (by exact_mod_cast hxn)
  have hcn : |⌈x * n⌉| ≤ 2 ^ 53 := by
    rw [abs_of_nonneg hc0]; exact hc1.trans (by exact_mod_cast hn)
  have up : ⌈y⌉ ≤ ⌈x * n⌉ := Int.ceil_le.2 (hy.le_int hcn (Int.le_ceil _))
  have lo : ⌈x * n⌉ - 1 ≤ ⌈y⌉ := by
    rcases hc0.eq_or_lt with h | h
    · have := hy.int_le (z := 0) (by norm_num) (by exact_mod_cast hxn0)
      have := Int.ceil_nonneg (by exact_mod_cast this : (0 : ℚ) ≤ y)
      omega
    · have := hy.int_le (z := ⌈x * n⌉ - 1) (by
        rw [abs_of_nonneg (by omega)]; omega) (by
        push_cast; linarith [Int.ceil_lt_add_one (x * n)])
      exact_mod_cast (this.trans (Int.le_ceil y))
  by_cases he : ⌈y⌉ = ⌈x * n⌉
  · exact .inl (by rw [he])
  by_cases h1 : ⌈x * n⌉ ≤ 1
  · left
    omega
  have he' : ⌈y⌉ = ⌈x * n⌉ - 1 := by omega
  have hm : ((max 1 ⌈y⌉.toNat : ℕ) : ℤ) = ⌈y⌉ := by omega
  refine .inr ⟨by omega, ?_⟩
  have hm' : ((max 1 ⌈y⌉.toNat : ℕ) : ℚ) = (⌈y⌉ : ℚ) := by exact_mod_cast congrArg (Int.cast (R := ℚ)) hm
  rw [hm', he']
  push_cast
  refine ⟨by linarith [Int.ceil_lt_add_one (x * n)], ?_⟩
  have hr := (abs_le.1 (hy.relative hxn0)).1
  have h2 : y ≤ (⌈x * n⌉ : ℚ) - 1 := by
    have := Int.le_ceil y
    rw [he'] at this; push_cast at this; exact this
  have h3 : x * n / 2 ^ 53 ≤ n / 2 ^ 53 := by gcongr
  linarith

/-- Three quarters of seven nodes are 5.25 nodes. -/
example : Qsc.calculateXThreshold 7 (3 / 4) = 6 := by
  rcases C81_float_partial 7 (by norm_num) (3 / 4) (by norm_num) (by norm_num) with h | ⟨-, h1, h2⟩
  · rw [h]; norm_num; decide +kernel
  · exfalso
    push_cast at h1 h2
    have h3 : ((Qsc.calculateXThreshold 7 (3 / 4) : ℕ) : ℚ) < 6 := by linarith
    have h4 : (5 : ℚ) < (Qsc.calculateXThreshold 7 (3 / 4) : ℕ) := by norm_num at h2; linarith
    have h5 : Qsc.calculateXThreshold 7 (3 / 4) < 6 := by exact_mod_cast h3
    have h6 : 5 < Qsc.calculateXThreshold 7 (3 / 4) := by exact_mod_cast h4
    omega

/-- C81, for a fraction `a/b` that was given as text and is stored as the `f64` next to it: the threshold is
never below the fraction of the `n` validators, so that a relative threshold of more than one half gives
a majority. It is `ceil(na/b)` if `na/b` is no integer; if it is, it can be one more (see
`C81_counterexample`), but not if `a/b` is an `f64`.

Missing for the full statement: `na/b` is an integer and `a/b` is no `f64`. -/
theorem C81_fraction_partial (a b n : ℕ) (hb : 0 < b) (hab : a ≤ b) (hbn : b * n < 2 ^ 51) (x : ℚ)
    (hx : RoundsTo ((a : ℚ) / b) x) :
    let t := Qsc.calculateXThreshold n x
    a * n ≤ b * t ∧
    (b < 2 * a → n < 2 * t) ∧
    (¬ b ∣ a * n → t = a * n / b + 1) ∧
    (b ∣ a * n → t = max 1 (a * n / b) ∨ t = a * n / b + 1) ∧
    (b ∣ a * n → x = (a : ℚ) / b → t = max 1 (a * n / b)) := by
  have hb' : (0 : ℚ) < b := by exact_mod_cast hb
  have hbn' : (b : ℚ) * n < 2 ^ 51 := by exact_mod_cast hbn
  have hn : n < 2 ^ 51 := lt_of_le_of_lt (Nat.le_mul_of_pos_left n hb) hbn
  have hab' : (a : ℚ) ≤ b := by exact_mod_cast hab
  set d : ℚ := (a : ℚ) / b with hd
  have hd0 : 0 ≤ d := by positivity
  have hd1 : d ≤ 1 := (div_le_one hb').2 hab'
  have hx0 : 0 ≤ x := by
    have := hx.int_le (z := 0) (by norm_num) (by exact_mod_cast hd0); exact_mod_cast this
  have hx1 : x ≤ 1 := by
    have := hx.le_int (z := 1) (by norm_num) (by exact_mod_cast hd1); exact_mod_cast this
  obtain ⟨y, hy, ht⟩ := xThreshold_eq (by omega : n ≤ 2 ^ 53) x
  have hn0 : (0 : ℚ) ≤ n := by positivity
  have hxn0 : 0 ≤ x * n := by positivity
  have hxn : x * n ≤ n := by nlinarith
  -- the computed product is close to the exact one
  have hclose : |y - d * n| ≤ n / 2 ^ 52 := by
    have e1 := hy.relative hxn0
    have e2 := hx.relative hd0
    have e3 : x * n / 2 ^ 53 ≤ n / 2 ^ 53 := by gcongr
    have e4 : |x - d| * n ≤ d / 2 ^ 53 * n := mul_le_mul_of_nonneg_right e2 hn0
    have e5 : d / 2 ^ 53 * n ≤ 1 / 2 ^ 53 * n := by gcongr
    have e6 : |x * n - d * n| = |x - d| * n := by
      rw [← sub_mul, abs_mul, abs_of_nonneg hn0]
    have e7 : y - d * n = (y - x * n) + (x * n - d * n) := by ring
    rw [e7]
    refine (abs_add_le _ _).trans ?_
    rw [e6]
    have e8 : (n : ℚ) / 2 ^ 53 + 1 / 2 ^ 53 * n = n / 2 ^ 52 := by ring
    linarith
  have hsmall : (n : ℚ) / 2 ^ 52 * b < 1 / 2 := by
    have : (n : ℚ) / 2 ^ 52 * b = b * n / 2 ^ 52 := by ring
    rw [this, div_lt_iff₀ (by norm_num)]
    norm_num at hbn' ⊢
    linarith
  have hsmall' : (n : ℚ) / 2 ^ 52 < 1 / 2 := by
    refine lt_of_le_of_lt ?_ hsmall
    have : (1 : ℚ) ≤ b := by exact_mod_cast hb
    exact le_mul_of_one_le_right (by positivity) this
  have hdb : d * n * b = a * n := by rw [hd]; field_simp
  obtain ⟨c1, c2⟩ := abs_le.1 hclose
  set k := a * n / b with hk
  set r := a * n % b with hr
  have hkr : b * k + r = a * n := Nat.div_add_mod _ _
  have hrb : r < b := Nat.mod_lt _ hb
  clear_value k r
  have hkr' : (b : ℚ) * k + r = a * n := by exact_mod_cast hkr
  have hdk : (d * n - k) * b = r := by rw [sub_mul, hdb]; linarith
  have hkn : k ≤ n := by
    by_contra h
    have : b * (n + 1) ≤ b * k := Nat.mul_le_mul_left b (by omega)
    have : a * n ≤ b * n := Nat.mul_le_mul_right n hab
    nlinarith
  -- two cases: exact quotient or not
  have hmain : (¬ b ∣ a * n → Qsc.calculateXThreshold n x = k + 1) ∧
      (b ∣ a * n → Qsc.calculateXThreshold n x = max 1 k ∨ Qsc.calculateXThreshold n x = k + 1) := by
    constructor
    · intro hdiv
      have hr1 : 1 ≤ r := by
        rcases Nat.eq_zero_or_pos r with h | h
        · exact absurd (Nat.dvd_of_mod_eq_zero (hr.symm.trans h)) hdiv
        · exact h
      have hr1' : (1 : ℚ) ≤ r := by exact_mod_cast hr1
      have hrb' : (r : ℚ) + 1 ≤ b := by exact_mod_cast hrb
      have l1 : (k : ℚ) < y := by
        by_contra h
        have h' : d * n - k ≤ n / 2 ^ 52 := by linarith
        have := mul_le_mul_of_nonneg_right h' hb'.le
        rw [hdk] at this
        linarith
      have l2 : y ≤ k + 1 := by
        by_contra h
        have h' : (k : ℚ) + 1 - d * n ≤ n / 2 ^ 52 := by linarith
        have := mul_le_mul_of_nonneg_right h' hb'.le
        have e : ((k : ℚ) + 1 - d * n) * b = b - r := by linear_combination -hdk
        rw [e] at this
        linarith
      have : ⌈y⌉ = (k : ℤ) + 1 := by
        rw [Int.ceil_eq_iff]; push_cast; exact ⟨by linarith, l2⟩
      rw [ht, this]
      omega
    · intro hdiv
      have hr0 : r = 0 := hr.trans (Nat.mod_eq_zero_of_dvd hdiv)
      have hdk' : d * n = k := by
        have : (d * n - k) * b = 0 := by rw [hdk, hr0]; norm_num
        rcases mul_eq_zero.1 this with h | h
        · linarith
        · exact absurd h hb'.ne'
      rw [hdk'] at c1 c2
      have l1 : (k : ℤ) ≤ ⌈y⌉ := by
        have : ((k : ℤ) : ℚ) - 1 < y := by push_cast; linarith
        have := this.trans_le (Int.le_ceil y)
        have : (k : ℤ) - 1 < ⌈y⌉ := by exact_mod_cast this
        omega
      have l2 : ⌈y⌉ ≤ (k : ℤ) + 1 := Int.ceil_le.2 (by push_cast; linarith)
      rw [ht]
      omega
  have hle : a * n ≤ b * Qsc.calculateXThreshold n x := by
    by_cases hdiv : b ∣ a * n
    · have hr0 : r = 0 := hr.trans (Nat.mod_eq_zero_of_dvd hdiv)
      have : k ≤ Qsc.calculateXThreshold n x := by rcases hmain.2 hdiv with h | h <;> omega
      have := Nat.mul_le_mul_left b this
      omega
    · rw [hmain.1 hdiv, Nat.mul_add, Nat.mul_one]; omega
  refine ⟨hle, fun hmaj => ?_, hmain.1, hmain.2, fun hdiv hxd => ?_⟩
  · rcases Nat.eq_zero_or_pos n with rfl | hn1
    · have : 1 ≤ Qsc.calculateXThreshold 0 x := by unfold Qsc.calculateXThreshold; omega
      omega
    · have h1 : b * n < 2 * a * n := Nat.mul_lt_mul_of_pos_right hmaj hn1
      have h2 : b * n < b * (2 * Qsc.calculateXThreshold n x) := by nlinarith
      exact Nat.lt_of_mul_lt_mul_left h2
  · have hr0 : r = 0 := hr.trans (Nat.mod_eq_zero_of_dvd hdiv)
    have hdk' : d * n = k := by
      have : (d * n - k) * b = 0 := by rw [hdk, hr0]; norm_num
      rcases mul_eq_zero.1 this with h | h
      · linarith
      · exact absurd h hb'.ne'
    rw [hxd, hdk'] at hy
    have : y = ((k : ℤ) : ℚ) := Spec.RoundsTo.int_eq (by exact_mod_cast hy) (by
      rw [abs_of_nonneg (by omega)]; omega)
    rw [ht, this, Int.ceil_intCast]
    rfl

/-- Concrete case: relative thresholds of 0.51 and 1/2 among ten validators. -/
example : Qsc.calculateXThreshold 10 (F64.round (51 / 100)) = 6 ∧
    Qsc.calculateXThreshold 10 (1 / 2) = 5 :=
  ⟨(C81_fraction_partial 51 100 10 (by decide) (by decide) (by decide) _
      (by have := rounds_round (51 / 100); exact_mod_cast this)).2.2.1 (by decide),
    (C81_fraction_partial 1 2 10 (by decide) (by decide) (by decide) (1 / 2)
      ⟨⟨1, -1, by norm_num, by norm_num⟩, fun m k _ => by norm_num, fun m k h1 h2 h => by
        have h0 := F64.round_tie m k h1 h2
        rw [F64.pow2_eq] at h0
        rw [← h0]
        have e : ((m : ℚ) + 1 / 2) * 2 ^ k = 1 / 2 := by rw [← h]; norm_num
        rw [e]
        decide +kernel⟩).2.2.2.2 (by decide) (by norm_num)⟩

/-- C81 is false for `max(1, ceil(nx))` if `x` is the number that was typed: a relative threshold of 0.07 is
stored as a number slightly above it, so that 8 of 100 validators are demanded instead of 7; in the same way
0.55 demands 56 of 100. In the other direction, the next `f64` above 1/10 gives 1 of 10 although ten times
this number is larger than 1. -/
theorem C81_counterexample :
    Qsc.calculateXThreshold 100 (F64.round (7 / 100)) = 8 ∧
    Qsc.calculateXThreshold 100 (F64.round (55 / 100)) = 56 ∧
    Qsc.calculateXThreshold 10 (F64.round (1 / 10)) = 1 ∧
    (1 : ℚ) / 10 < F64.round (1 / 10) := by decide +kernel

#print axioms C81_threshold
#print axioms C81_float_partial
#print axioms C81_fraction_partial
#print axioms C81_counterexample

end FA.Props
