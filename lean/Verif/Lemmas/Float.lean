import Verif.Model.Graph
import Mathlib.Algebra.Order.Floor.Ring
import Mathlib.Tactic.Linarith
import Mathlib.Tactic.FieldSimp
import Mathlib.Tactic.Ring
import Mathlib.Algebra.Order.Field.Power

/-!
# Rounding to `f64`
-/

namespace FA.F64

theorem pow2_eq (z : ℤ) : pow2 z = (2 : ℚ) ^ z := by
  cases z with
  | ofNat n => simp [pow2]
  | negSucc n => simp [pow2, zpow_negSucc]

theorem pow2_pos (z : ℤ) : 0 < pow2 z := by rw [pow2_eq]; positivity

theorem log2_bounds {n : ℕ} (hn : n ≠ 0) : 2 ^ Nat.log2 n ≤ n ∧ n < 2 ^ (Nat.log2 n + 1) :=
  ⟨Nat.log2_self_le hn, Nat.lt_log2_self⟩

theorem exponent_spec {x : ℚ} (hx : 0 < x) : pow2 (exponent x) ≤ x ∧ x < pow2 (exponent x + 1) := by
  set p := Nat.log2 x.num.natAbs with hp
  set q := Nat.log2 x.den with hq
  have hnum : x.num.natAbs ≠ 0 := by
    have := Rat.num_pos.2 hx; omega
  obtain ⟨a1, a2⟩ := log2_bounds hnum
  obtain ⟨b1, b2⟩ := log2_bounds x.den_nz
  rw [← hp] at a1 a2
  rw [← hq] at b1 b2
  have hxe : x = (x.num.natAbs : ℚ) / x.den := by
    have h1 : ((x.num.natAbs : ℕ) : ℚ) = (x.num : ℚ) := by
      have : (x.num.natAbs : ℤ) = x.num := Int.natAbs_of_nonneg (Rat.num_pos.2 hx).le
      rw [← Int.cast_natCast, this]
    rw [h1, Rat.num_div_den]
  have c1 : (2 : ℚ) ^ (p : ℕ) ≤ (x.num.natAbs : ℚ) := by exact_mod_cast a1
  have c2 : (x.num.natAbs : ℚ) < (2 : ℚ) ^ (p + 1) := by exact_mod_cast a2
  have d1 : (2 : ℚ) ^ (q : ℕ) ≤ (x.den : ℚ) := by exact_mod_cast b1
  have d2 : (x.den : ℚ) < (2 : ℚ) ^ (q + 1) := by exact_mod_cast b2
  have hden : (0 : ℚ) < x.den := by exact_mod_cast x.den_pos
  have lo : pow2 ((p : ℤ) - q - 1) < x := by
    rw [pow2_eq, hxe, lt_div_iff₀ hden]
    have : (2 : ℚ) ^ ((p : ℤ) - q - 1) * 2 ^ (q + 1) = 2 ^ p := by
      rw [← zpow_natCast, ← zpow_natCast, ← zpow_add₀ (by norm_num)]; congr 1; push_cast; ring
    calc _ < (2 : ℚ) ^ ((p : ℤ) - q - 1) * 2 ^ (q + 1) :=
          mul_lt_mul_of_pos_left d2 (by positivity)
      _ ≤ _ := by rw [this]; exact c1
  have hi : x < pow2 ((p : ℤ) - q + 1) := by
    rw [pow2_eq, hxe, div_lt_iff₀ hden]
    have : (2 : ℚ) ^ ((p : ℤ) - q + 1) * 2 ^ q = 2 ^ (p + 1) := by
      rw [← zpow_natCast, ← zpow_natCast, ← zpow_add₀ (by norm_num)]; congr 1; push_cast; ring
    calc _ < (2 : ℚ) ^ (p + 1) := c2
      _ = (2 : ℚ) ^ ((p : ℤ) - q + 1) * 2 ^ q := this.symm
      _ ≤ _ := mul_le_mul_of_nonneg_left d1 (by positivity)
  unfold exponent
  dsimp only
  rw [← hp, ← hq]
  split
  · rename_i h; exact ⟨h, hi⟩
  · rename_i h
    exact ⟨lo.le, by rw [sub_add_cancel]; exact not_le.1 h⟩

theorem nearestInt_spec (x : ℚ) (z : ℤ) : |(nearestInt x : ℚ) - x| ≤ |(z : ℚ) - x| := by
  have hf1 := Int.floor_le x
  have hf2 := Int.lt_floor_add_one x
  -- integers are at least as far as the next integer on their side
  have hz : |(z : ℚ) - x| ≥ min (x - ⌊x⌋) (⌊x⌋ + 1 - x) := by
    rcases le_or_gt z ⌊x⌋ with h | h
    · have h' : (z : ℚ) ≤ ⌊x⌋ := by exact_mod_cast h
      rw [abs_of_nonpos (by linarith)]
      exact le_trans (min_le_left _ _) (by linarith)
    · have h' : (⌊x⌋ : ℚ) + 1 ≤ z := by exact_mod_cast h
      rw [abs_of_nonneg (by linarith)]
      exact le_trans (min_le_right _ _) (by linarith)
  refine le_trans ?_ hz
  unfold nearestInt
  dsimp only
  split
  · rename_i h
    rw [abs_of_nonpos (by linarith)]
    exact le_min (by linarith) (by linarith)
  · rename_i h
    split
    · rename_i h'
      push_cast
      rw [abs_of_nonneg (by linarith)]
      exact le_min (by linarith) (by linarith)
    · rename_i h'
      split
      · rw [abs_of_nonpos (by linarith)]
        exact le_min (by linarith) (by linarith)
      · push_cast
        rw [abs_of_nonneg (by linarith)]
        exact le_min (by linarith) (by linarith)

theorem roundPos_nearest {x : ℚ} (hx : 0 < x) (m k : ℤ) (hm : |m| ≤ 2 ^ 53) :
    |roundPos x - x| ≤ |(m : ℚ) * pow2 k - x| := by
  obtain ⟨h1, h2⟩ := exponent_spec hx
  set e := exponent x with he
  set u := pow2 (e - 52) with hu
  have hu0 : 0 < u := pow2_pos _
  have hr : roundPos x = nearestInt (x / u) * u := rfl
  -- compared with multiples of the unit
  have hint : ∀ z : ℤ, |roundPos x - x| ≤ |(z : ℚ) * u - x| := by
    intro z
    have := mul_le_mul_of_nonneg_right (nearestInt_spec (x / u) z) hu0.le
    have e1 : ∀ y : ℚ, |y - x / u| * u = |y * u - x| := by
      intro y
      rw [← abs_of_pos hu0, ← abs_mul, abs_of_pos hu0, sub_mul, div_mul_cancel₀ _ hu0.ne']
    rw [e1, e1] at this
    rw [hr]; exact this
  rcases le_or_gt (e - 52) k with hk | hk
  · have := hint (m * 2 ^ (k - (e - 52)).toNat)
    have e2 : ((m * 2 ^ (k - (e - 52)).toNat : ℤ) : ℚ) * u = m * pow2 k := by
      rw [hu, pow2_eq, pow2_eq]
      push_cast
      rw [mul_assoc, ← zpow_natCast, ← zpow_add₀ (by norm_num)]
      congr 2
      rw [Int.toNat_of_nonneg (by omega)]; ring
    rwa [e2] at this
  · -- smaller units: the number is at most `2^e`
    have hy : (m : ℚ) * pow2 k ≤ pow2 e := by
      have hm' : (m : ℚ) ≤ 2 ^ (53 : ℕ) := by
        have := (abs_le.1 hm).2
        exact_mod_cast this
      calc (m : ℚ) * pow2 k ≤ 2 ^ (53 : ℕ) * pow2 k := mul_le_mul_of_nonneg_right hm' (pow2_pos k).le
        _ = (2 : ℚ) ^ (53 + k) := by
          rw [pow2_eq, ← zpow_natCast, ← zpow_add₀ (by norm_num)]; rfl
        _ ≤ pow2 e := by
          rw [pow2_eq]; exact zpow_le_zpow_right₀ (by norm_num) (by omega)
    have := hint (2 ^ 52)
    have e3 : ((2 ^ 52 : ℤ) : ℚ) * u = pow2 e := by
      rw [hu, pow2_eq, pow2_eq, show ((2 ^ 52 : ℤ) : ℚ) = (2 : ℚ) ^ (52 : ℤ) by norm_num,
        ← zpow_add₀ (by norm_num)]
      congr 1; ring
    rw [e3] at this
    refine le_trans this ?_
    rw [abs_of_nonpos (by linarith), abs_of_nonpos (by linarith)]
    linarith

/-- Rounding gives the nearest number with 53 significant bits. -/
theorem round_nearest (x : ℚ) (m k : ℤ) (hm : |m| ≤ 2 ^ 53) :
    |round x - x| ≤ |(m : ℚ) * pow2 k - x| := by
  unfold round
  split
  · rename_i h; rw [h, sub_self, abs_zero]; exact abs_nonneg _
  · split
    · rename_i h; exact roundPos_nearest h m k hm
    · rename_i h0 h
      have hx : 0 < -x := by
        rcases lt_or_gt_of_ne h0 with h1 | h1
        · linarith
        · exact absurd h1 h
      have := roundPos_nearest hx (-m) k (by rwa [abs_neg])
      rw [← abs_neg (-roundPos (-x) - x), ← abs_neg ((m : ℚ) * pow2 k - x)]
      have e1 : -(-roundPos (-x) - x) = roundPos (-x) - -x := by ring
      have e2 : -((m : ℚ) * pow2 k - x) = ((-m : ℤ) : ℚ) * pow2 k - -x := by push_cast; ring
      rwa [e1, e2]

/-- Rounding gives a number with 53 significant bits. -/
theorem round_representable (x : ℚ) : ∃ m k : ℤ, |m| ≤ 2 ^ 53 ∧ round x = m * pow2 k := by
  have hpos : ∀ y : ℚ, 0 < y → ∃ m k : ℤ, |m| ≤ 2 ^ 53 ∧ roundPos y = m * pow2 k := by
    intro y hy
    obtain ⟨h1, h2⟩ := exponent_spec hy
    refine ⟨nearestInt (y / pow2 (exponent y - 52)), exponent y - 52, ?_, rfl⟩
    set u := pow2 (exponent y - 52) with hu
    have hu0 : 0 < u := pow2_pos _
    have hlo : 0 ≤ y / u := by positivity
    have hhi : y / u < 2 ^ 53 := by
      rw [div_lt_iff₀ hu0]
      refine lt_of_lt_of_eq h2 ?_
      rw [hu, pow2_eq, pow2_eq, ← zpow_natCast, ← zpow_add₀ (by norm_num)]; congr 1; push_cast; ring
    have f0 : 0 ≤ ⌊y / u⌋ := Int.floor_nonneg.2 hlo
    have f1 : ⌊y / u⌋ < 2 ^ 53 := by
      rw [Int.floor_lt]; push_cast; exact hhi
    unfold nearestInt
    dsimp only
    rw [abs_le]
    split
    · constructor <;> omega
    · split
      · constructor <;> omega
      · split <;> constructor <;> omega
  unfold round
  split
  · exact ⟨0, 0, by norm_num, by simp⟩
  · split
    · rename_i h; exact hpos x h
    · rename_i h0 h
      have hx : 0 < -x := by
        rcases lt_or_gt_of_ne h0 with h1 | h1
        · linarith
        · exact absurd h1 h
      obtain ⟨m, k, h1, h2⟩ := hpos _ hx
      exact ⟨-m, k, by rwa [abs_neg], by rw [h2]; push_cast; ring⟩

theorem exponent_unique {x : ℚ} {e : ℤ} (h1 : pow2 e ≤ x) (h2 : x < pow2 (e + 1)) :
    exponent x = e := by
  have hx : 0 < x := lt_of_lt_of_le (pow2_pos e) h1
  obtain ⟨h3, h4⟩ := exponent_spec hx
  rw [pow2_eq] at h1 h2 h3 h4
  have a := (zpow_lt_zpow_iff_right₀ (by norm_num : (1 : ℚ) < 2)).1 (lt_of_le_of_lt h1 h4)
  have b := (zpow_lt_zpow_iff_right₀ (by norm_num : (1 : ℚ) < 2)).1 (lt_of_le_of_lt h3 h2)
  omega

/-- Half way between two neighbouring numbers with 53 significant bits, the even one is chosen. -/
theorem round_tie (m k : ℤ) (h1 : 2 ^ 52 ≤ m) (h2 : m < 2 ^ 53) :
    round ((m + 1 / 2) * pow2 k) = (if m % 2 = 0 then m else m + 1 : ℤ) * pow2 k := by
  have hu := pow2_pos k
  have h1' : (2 : ℚ) ^ 52 ≤ m := by exact_mod_cast h1
  have h2' : (m : ℚ) + 1 ≤ 2 ^ 53 := by exact_mod_cast h2
  have hx : 0 < ((m : ℚ) + 1 / 2) * pow2 k :=
    mul_pos (by linarith [pow_pos (by norm_num : (0:ℚ) < 2) 52]) hu
  have he : exponent ((m + 1 / 2) * pow2 k) = k + 52 := by
    apply exponent_unique
    · rw [pow2_eq, pow2_eq, zpow_add₀ (by norm_num), mul_comm]
      refine mul_le_mul_of_nonneg_right ?_ (by positivity)
      have : (2 : ℚ) ^ (52 : ℤ) = 2 ^ 52 := by norm_cast
      rw [this]; linarith
    · rw [pow2_eq, pow2_eq, add_assoc, zpow_add₀ (by norm_num), mul_comm ((2:ℚ)^k)]
      refine mul_lt_mul_of_pos_right ?_ (by positivity)
      have : (2 : ℚ) ^ (52 + 1 : ℤ) = 2 ^ 53 := by norm_cast
      rw [this]; linarith
  unfold round
  rw [if_neg hx.ne', if_pos hx]
  unfold roundPos
  dsimp only
  rw [he, add_sub_cancel_right, mul_div_assoc, div_self hu.ne', mul_one]
  congr 2
  have hf : ⌊(m : ℚ) + 1 / 2⌋ = m := by
    rw [Int.floor_eq_iff]; constructor <;> linarith
  unfold nearestInt
  dsimp only
  rw [hf, if_neg (by linarith), if_neg (by linarith)]

theorem round_neg (x : ℚ) : round (-x) = - round x := by
  unfold round
  rcases lt_trichotomy x 0 with h | h | h
  · rw [if_neg (by linarith), if_pos (by linarith), if_neg h.ne, if_neg (by linarith), neg_neg]
  · subst h; simp
  · rw [if_neg (by linarith), if_neg (by linarith), if_neg h.ne', if_pos h, neg_neg]
end FA.F64
