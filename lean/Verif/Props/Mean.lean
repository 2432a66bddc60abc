import Verif.Model.Mean
import Verif.Lemmas.Results
import Verif.Props.Threshold

/-!
# C84: mean set sizes with floating-point numbers
-/

namespace FA.Props
open FA Spec

/-! ### Helpers -/

theorem round_nat {n : ℕ} (hn : n ≤ 2 ^ 53) : F64.round (n : ℚ) = n := by
  have h := rounds_round (((n : ℤ) : ℚ))
  have := h.int_eq (by rw [abs_of_nonneg (by omega)]; exact_mod_cast hn)
  exact_mod_cast this

/-- Rounding is monotone. -/
theorem round_mono {x x' : ℚ} (h : x ≤ x') : F64.round x ≤ F64.round x' := by
  rcases h.eq_or_lt with rfl | h
  · exact le_rfl
  by_contra hlt
  push Not at hlt
  obtain ⟨m, k, hm, e⟩ := (rounds_round x).representable
  obtain ⟨m', k', hm', e'⟩ := (rounds_round x').representable
  have h1 := (rounds_round x).nearest m' k' hm'
  have h2 := (rounds_round x').nearest m k hm
  rw [← e'] at h1
  rw [← e] at h2
  generalize F64.round x = y at *
  generalize F64.round x' = y' at *
  have a1 := sq_le_sq.2 h1
  have a2 := sq_le_sq.2 h2
  nlinarith

theorem meanF64_eq {r : SetVecResult} (hs : (r.nodeSets.map Finset.card).sum ≤ 2 ^ 53) (hl : r.nodeSets.length ≤ 2 ^ 53) :
    r.meanF64 = F64.round (((r.nodeSets.map Finset.card).sum : ℕ) / (r.nodeSets.length : ℕ)) := by
  unfold SetVecResult.meanF64
  rw [round_nat hs, round_nat hl]
  split
  · rename_i h
    rw [List.isEmpty_iff.1 h]
    simp [F64.round]
  · rfl

theorem sum_bounds {L : List NodeSet} {lo hi : ℕ} (h1 : ∀ S ∈ L, lo ≤ S.card) (h2 : ∀ S ∈ L, S.card ≤ hi) :
    lo * L.length ≤ (L.map Finset.card).sum ∧ (L.map Finset.card).sum ≤ hi * L.length := by
  induction L with
  | nil => simp
  | cons S L ih =>
    simp only [List.mem_cons, forall_eq_or_imp] at h1 h2
    obtain ⟨a, b⟩ := ih h1.2 h2.2
    simp only [List.map_cons, List.sum_cons, List.length_cons, Nat.mul_add, Nat.mul_one]
    omega

/-! ### Property theorems -/

/-- C84: the mean is the correctly rounded exact mean (three roundings do not lose more than one), so it
is wrong by at most a fraction of `2^-53`, and lies between the smallest and the largest size. -/
theorem C84_mean (r : SetVecResult) (hs : (r.nodeSets.map Finset.card).sum ≤ 2 ^ 53)
    (hl : r.nodeSets.length ≤ 2 ^ 53) (mean : ℚ) (h0 : r.nodeSets = [] → mean = 0)
    (hm : mean * r.nodeSets.length = (r.nodeSets.map Finset.card).sum) :
    RoundsTo mean r.meanF64 ∧ |r.meanF64 - mean| ≤ mean / 2 ^ 53 ∧
      ∀ lo hi : ℕ, (∀ S ∈ r.nodeSets, lo ≤ S.card) → (∀ S ∈ r.nodeSets, S.card ≤ hi) →
        r.nodeSets ≠ [] → lo ≤ r.meanF64 ∧ r.meanF64 ≤ hi := by
  have e : mean = ((r.nodeSets.map Finset.card).sum : ℕ) / (r.nodeSets.length : ℕ) := by
    by_cases hn : r.nodeSets = []
    · rw [h0 hn, hn]; simp
    · have : (r.nodeSets.length : ℚ) ≠ 0 := by
        rw [Nat.cast_ne_zero]; exact fun h => hn (List.length_eq_zero_iff.1 h)
      rw [eq_div_iff this, hm]
  have hr : RoundsTo mean r.meanF64 := by
    rw [meanF64_eq hs hl, ← e]
    exact rounds_round mean
  have h00 : 0 ≤ mean := by rw [e]; positivity
  refine ⟨hr, hr.relative h00, ?_⟩
  intro lo hi h1 h2 hn
  obtain ⟨b1, b2⟩ := sum_bounds h1 h2
  have hpos : 0 < r.nodeSets.length := List.length_pos_iff.2 hn
  have hpos' : (0 : ℚ) < r.nodeSets.length := by exact_mod_cast hpos
  generalize (r.nodeSets.map Finset.card).sum = s at *
  generalize r.nodeSets.length = l at *
  have hlo : lo ≤ 2 ^ 53 := le_trans (Nat.le_mul_of_pos_right lo hpos) (b1.trans hs)
  refine ⟨?_, ?_⟩
  · have := hr.int_le (z := lo) (by rw [abs_of_nonneg (by omega)]; exact_mod_cast hlo) (by
      rw [e, le_div_iff₀ hpos']; exact_mod_cast b1)
    exact_mod_cast this
  · by_cases hhi : hi ≤ 2 ^ 53
    · have := hr.le_int (z := hi) (by rw [abs_of_nonneg (by omega)]; exact_mod_cast hhi) (by
        rw [e, div_le_iff₀ hpos']; exact_mod_cast b2)
      exact_mod_cast this
    · have := hr.le_int (z := 2 ^ 53) (by norm_num) (by
        rw [e, div_le_iff₀ hpos']
        have h3 : (s : ℚ) ≤ 2 ^ 53 := by exact_mod_cast hs
        have h4 : (1 : ℚ) ≤ l := by exact_mod_cast hpos
        push_cast
        nlinarith)
      refine this.trans ?_
      push_cast
      exact_mod_cast (not_le.1 hhi).le

/-- C84: the computed mean is a whole number only if the exact mean is, and then it is the same number. -/
theorem C84_whole (r : SetVecResult) (hs : (r.nodeSets.map Finset.card).sum < 2 ^ 53)
    (hl : r.nodeSets.length ≤ 2 ^ 53) (k : ℕ) (hn : r.nodeSets ≠ []) :
    r.meanF64 = k ↔ (r.nodeSets.map Finset.card).sum = k * r.nodeSets.length := by
  have hpos : 0 < r.nodeSets.length := List.length_pos_iff.2 hn
  have hpos' : (0 : ℚ) < r.nodeSets.length := by exact_mod_cast hpos
  rw [meanF64_eq hs.le hl]
  generalize (r.nodeSets.map Finset.card).sum = s at *
  generalize r.nodeSets.length = l at *
  constructor
  · intro h
    have hr := (rounds_round ((s : ℚ) / l)).relative (by positivity)
    rw [h] at hr
    by_contra hne
    have h1 : (1 : ℚ) ≤ |(k : ℚ) * l - s| := by
      have : (1 : ℤ) ≤ |(k : ℤ) * l - s| := Int.one_le_abs (by
        intro h0; apply hne; zify; linarith)
      exact_mod_cast this
    have h2 : |(k : ℚ) * l - s| = |(k : ℚ) - s / l| * l := by
      rw [← abs_of_pos hpos', ← abs_mul, abs_of_pos hpos', sub_mul, div_mul_cancel₀ _ hpos'.ne']
    rw [h2] at h1
    have h3 : |(k : ℚ) - s / l| * l ≤ s / 2 ^ 53 := by
      calc |(k : ℚ) - s / l| * l ≤ (s / l / 2 ^ 53) * l := by gcongr
        _ = s / 2 ^ 53 := by field_simp
    have h4 : (s : ℚ) / 2 ^ 53 < 1 := by
      rw [div_lt_one (by norm_num)]; exact_mod_cast hs
    linarith
  · rintro rfl
    rw [Nat.cast_mul, mul_div_cancel_right₀ _ hpos'.ne']
    exact round_nat (le_trans (Nat.le_mul_of_pos_right k hpos) hs.le)

/-- C84: comparing computed means never contradicts the exact means; and if there are not too many sets,
it gives the same result. -/
theorem C84_compare (r r' : SetVecResult)
    (hs : (r.nodeSets.map Finset.card).sum ≤ 2 ^ 53) (hl : r.nodeSets.length ≤ 2 ^ 53)
    (hs' : (r'.nodeSets.map Finset.card).sum ≤ 2 ^ 53) (hl' : r'.nodeSets.length ≤ 2 ^ 53)
    (hn : r.nodeSets ≠ []) (hn' : r'.nodeSets ≠ []) :
    (r.meanF64 < r'.meanF64 →
      (r.nodeSets.map Finset.card).sum * r'.nodeSets.length <
        (r'.nodeSets.map Finset.card).sum * r.nodeSets.length) ∧
    ((r.nodeSets.map Finset.card).sum * r'.nodeSets.length < 2 ^ 52 →
      (r'.nodeSets.map Finset.card).sum * r.nodeSets.length ≤ 2 ^ 52 →
      (r.meanF64 < r'.meanF64 ↔
        (r.nodeSets.map Finset.card).sum * r'.nodeSets.length <
          (r'.nodeSets.map Finset.card).sum * r.nodeSets.length)) := by
  have hpos : 0 < r.nodeSets.length := List.length_pos_iff.2 hn
  have hpos' : 0 < r'.nodeSets.length := List.length_pos_iff.2 hn'
  rw [meanF64_eq hs hl, meanF64_eq hs' hl']
  generalize (r.nodeSets.map Finset.card).sum = s at *
  generalize r.nodeSets.length = l at *
  generalize (r'.nodeSets.map Finset.card).sum = s' at *
  generalize r'.nodeSets.length = l' at *
  have p : (0 : ℚ) < l := by exact_mod_cast hpos
  have p' : (0 : ℚ) < l' := by exact_mod_cast hpos'
  have key : F64.round ((s : ℚ) / l) < F64.round ((s' : ℚ) / l') → s * l' < s' * l := by
    intro h
    have : (s : ℚ) / l < s' / l' := lt_of_not_ge fun h' => absurd (round_mono h') (not_le.2 h)
    rw [div_lt_div_iff₀ p p'] at this
    exact_mod_cast this
  refine ⟨key, fun b b' => ⟨key, fun h => ?_⟩⟩
  have r1 := (rounds_round ((s : ℚ) / l)).relative (by positivity)
  have r2 := (rounds_round ((s' : ℚ) / l')).relative (by positivity)
  have h1 : (s : ℚ) * l' + 1 ≤ s' * l := by exact_mod_cast h
  have e : (s' : ℚ) / l' - s / l = (s' * l - s * l') / (l * l') := by field_simp
  have q : (0 : ℚ) < l * l' := by positivity
  have h2 : 1 / ((l : ℚ) * l') ≤ (s' : ℚ) / l' - s / l := by
    rw [e]; gcongr; linarith
  have h3 : (s : ℚ) / l / 2 ^ 53 + s' / l' / 2 ^ 53 < 1 / (l * l') := by
    have : (s : ℚ) / l / 2 ^ 53 + s' / l' / 2 ^ 53 = ((s * l' + s' * l) / 2 ^ 53) / (l * l') := by
      field_simp
    rw [this]
    gcongr
    rw [div_lt_one (by norm_num)]
    have c : (s : ℚ) * l' < 2 ^ 52 := by exact_mod_cast b
    have c' : (s' : ℚ) * l ≤ 2 ^ 52 := by exact_mod_cast b'
    norm_num at c c' ⊢
    linarith
  have a1 := (abs_le.1 r1).2
  have a2 := (abs_le.1 r2).1
  linarith

/-! ### Concrete cases -/

/-- Three sets; their mean size is 5/3. -/
def threeSets : SetVecResult := ⟨[{3}, {0, 1}, {0, 2}], none⟩

/-- Four sets; their mean size is 7/4. -/
def fourSets : SetVecResult := ⟨[{3}, {0, 1}, {0, 2}, {1, 2}], none⟩

/-- 5/3 is rounded; 7/4 is exact. -/
example : threeSets.meanF64 = 7505999378950827 / 2 ^ 52 ∧ threeSets.meanF64 ≠ 5 / 3 ∧
    fourSets.meanF64 = 7 / 4 := by decide +kernel

/-- Concrete case of `C84_mean`. -/
example : RoundsTo (5 / 3) threeSets.meanF64 ∧ |threeSets.meanF64 - 5 / 3| ≤ 5 / 3 / 2 ^ 53 ∧
    1 ≤ threeSets.meanF64 ∧ threeSets.meanF64 ≤ 2 := by
  obtain ⟨h1, h2, h3⟩ := C84_mean threeSets (by decide) (by decide) (5 / 3) (by simp [threeSets])
    (by norm_num [threeSets])
  have := h3 1 2 (by decide) (by decide) (by simp [threeSets])
  exact ⟨h1, h2, by exact_mod_cast this.1, by exact_mod_cast this.2⟩

/-- Concrete case of `C84_whole`. -/
example : threeSets.meanF64 ≠ (2 : ℕ) ∧ (⟨[{3, 4}, {0, 1}, {0, 2}], none⟩ : SetVecResult).meanF64 = (2 : ℕ) :=
  ⟨mt (C84_whole threeSets (by decide) (by decide) 2 (by simp [threeSets])).1 (by decide),
    (C84_whole _ (by decide) (by decide) 2 (by simp)).2 (by decide)⟩

/-- Concrete case of `C84_compare`. -/
example : threeSets.meanF64 < fourSets.meanF64 :=
  ((C84_compare threeSets fourSets (by decide) (by decide) (by decide) (by decide) (by simp [threeSets])
    (by simp [fourSets])).2 (by decide) (by decide)).2 (by decide)

#print axioms C84_mean
#print axioms C84_whole
#print axioms C84_compare

end FA.Props
