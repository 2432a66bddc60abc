import Mathlib.Data.Nat.Choose.Basic
import Mathlib.Tactic.FieldSimp
import Mathlib.Tactic.Linarith
import Verif.Lemmas.Probability
import Verif.Lemmas.Qsc

/-!
# Probabilities of the sets that are chosen for random quorum sets
-/

namespace FA
open Spec Simulator

theorem randomLoop_succ {R : Rand} {weights : List ℕ} {k : ℕ} {l vs vs' : List ℕ} {s s' : R.State} :
    Qsc.randomLoop R weights (k + 1) l vs s = .ok (vs', s') ↔
      ∃ y s1, R.chooseWeighted s (fun x => weights.getD x 1) l = (some y, s1) ∧
        Qsc.randomLoop R weights k (l.erase y) (vs ++ [y]) s1 = .ok (vs', s') := by
  rw [Qsc.randomLoop]
  cases hc : R.chooseWeighted s (fun x => weights.getD x 1) l with
  | mk c s1 =>
    cases c with
    | none =>
      dsimp only
      constructor
      · intro h; cases h
      · rintro ⟨y, s1, h, -⟩; cases h
    | some z =>
      dsimp only
      constructor
      · intro h; exact ⟨z, s1, rfl, h⟩
      · rintro ⟨y, s2, h, h'⟩
        obtain ⟨h1, rfl⟩ := Prod.mk.inj h
        obtain rfl := Option.some.inj h1
        exact h'

theorem le_sum_of_mem {w : ℕ → ℕ} {l : List ℕ} {y : ℕ} (hy : y ∈ l) : w y ≤ (l.map w).sum := by
  induction l with
  | nil => cases hy
  | cons x l ih =>
    rw [List.map_cons, List.sum_cons]
    rcases List.mem_cons.1 hy with rfl | hy
    · omega
    · have := ih hy; omega

theorem randomLoop_cons {L : ℕ} {weights : List ℕ} {k a : ℕ} {l vs vs' r : List ℕ} {s' : (lottery L).State} :
    Qsc.randomLoop (lottery L) weights (k + 1) l vs (a :: r : List ℕ) = .ok (vs', s') ↔
      ∃ y, candidateAt (fun x => weights.getD x 1) (a % (l.map (fun x => weights.getD x 1)).sum) l = some y ∧
        Qsc.randomLoop (lottery L) weights k (l.erase y) (vs ++ [y]) r = .ok (vs', s') := by
  constructor
  · intro h
    obtain ⟨y, s1, h1, h2⟩ := randomLoop_succ.1 h
    obtain ⟨h3, rfl⟩ := Prod.mk.inj (show (candidateAt (fun x => weights.getD x 1)
      (a % (l.map (fun x => weights.getD x 1)).sum) l, r) = (some y, s1) from h1)
    exact ⟨y, h3, h2⟩
  · rintro ⟨y, h1, h2⟩
    exact randomLoop_succ.2 ⟨y, r, congrArg (fun c => (c, r)) h1, h2⟩

theorem sum_erase_le {w : ℕ → ℕ} {l : List ℕ} {y : ℕ} : ((l.erase y).map w).sum ≤ (l.map w).sum := by
  induction l with
  | nil => simp
  | cons x l ih =>
    rw [List.erase_cons]
    split
    · rw [List.map_cons, List.sum_cons]; omega
    · rw [List.map_cons, List.map_cons, List.sum_cons, List.sum_cons]; omega

/-- The probability that the loop of `RandomQsc` appends the given nodes in the given order. -/
theorem randomLoop_inTurn {L : ℕ} (hL : 0 < L) {weights : List ℕ} {js l vs : List ℕ} (hl : l.Nodup)
    (hd : ∀ t, 0 < t → t ≤ (l.map (fun x => weights.getD x 1)).sum → t ∣ L) (hj : js.Nodup) (hjl : ∀ j ∈ js, j ∈ l) :
    Probability L js.length (fun r => ∃ s', Qsc.randomLoop (lottery L) weights js.length l vs r =
      .ok (vs ++ js, s')) = InTurn (fun x => weights.getD x 1) l js := by
  induction js generalizing l vs with
  | nil => 
    rw [InTurn]
    refine probability_zero ⟨([] : List ℕ), ?_⟩
    rw [List.append_nil]
    rfl
  | cons j js ih =>
    obtain ⟨hj1, hj2⟩ := List.nodup_cons.1 hj
    have hjm : j ∈ l := hjl j List.mem_cons_self
    rw [InTurn, List.length_cons]
    rcases Nat.eq_zero_or_pos (l.map (fun x => weights.getD x 1)).sum with h0 | h0
    · rw [h0, Nat.cast_zero, div_zero, zero_mul]
      refine probability_false (fun r hr hv => ?_)
      rintro ⟨s', h⟩
      cases r with
      | nil => cases hr
      | cons a r =>
        obtain ⟨y, h1, -⟩ := randomLoop_cons.1 h
        obtain ⟨h2, h3⟩ := candidateAt_some h1
        have hle : weights.getD y 1 ≤ (l.map (fun x => weights.getD x 1)).sum :=
          le_sum_of_mem (w := fun x => weights.getD x 1) h2
        omega
    · have ih' := ih (l := l.erase j) (vs := vs ++ [j]) (hl.erase j)
        (fun t h1 h2 => hd t h1 (h2.trans sum_erase_le)) hj2
        (fun x hx => (List.mem_erase_of_ne (fun h => hj1 (by rw [← h]; exact hx))).2 (hjl x (List.mem_cons_of_mem _ hx)))
      rw [← ih', List.append_assoc]
      refine probability_choice_one hL hl rfl h0 (hd _ h0 (Nat.le_refl _)) hjm (fun a r => ?_)
      constructor
      · rintro ⟨s', h⟩
        obtain ⟨y, h1, h2⟩ := randomLoop_cons.1 h
        obtain ⟨new, h3, -⟩ := randomLoop_ok (hl.erase y) h2
        rw [List.append_assoc] at h3
        have h4 : j = y := (List.cons.inj (List.append_cancel_left h3)).1
        rw [← h4] at h1 h2
        exact ⟨h1, s', h2⟩
      · rintro ⟨h1, s', h2⟩
        exact ⟨s', randomLoop_cons.2 ⟨j, h1, h2⟩⟩

/-- Without weights each set of nodes is appended with the same probability, whatever happens afterwards. -/
theorem randomLoop_uniform {L : ℕ} (hL : 0 < L) {k N : ℕ} {l vs : List ℕ} (hl : l.Nodup)
    (hd : ∀ t, 0 < t → t ≤ l.length → t ∣ L) {T : Finset ℕ} (hT : ∀ x ∈ T, x ∈ l) (hk : T.card = k)
    {K : List ℕ → List ℕ → Prop} {p : ℚ}
    (hK : ∀ new : List ℕ, new.Nodup → new.toFinset = T → Probability L N (K (vs ++ new)) = p) :
    Probability L (k + N) (fun r => ∃ new s', Qsc.randomLoop (lottery L) [] k l vs r = .ok (vs ++ new, s') ∧
      new.toFinset = T ∧ K (vs ++ new) s') = p / (l.length.choose k : ℕ) := by
  induction k generalizing l vs T with
  | zero =>
    rw [Nat.choose_zero_right, Nat.cast_one, div_one, Nat.zero_add]
    obtain rfl := Finset.card_eq_zero.1 hk
    rw [← hK [] List.nodup_nil rfl]
    refine probability_congr (fun r _ _ => ?_)
    constructor
    · rintro ⟨new, s', h1, h2, h3⟩
      obtain ⟨h4, rfl⟩ := Prod.mk.inj (Except.ok.inj h1)
      rw [← h4] at h3
      rw [List.append_nil]
      exact h3
    · intro h
      exact ⟨[], r, by rw [List.append_nil]; rfl, rfl, h⟩
  | succ k ih =>
    obtain ⟨t0, ht0⟩ : T.Nonempty := Finset.card_pos.1 (by omega)
    have hpos : 0 < l.length := List.length_pos_of_mem (hT t0 ht0)
    have hsum : (l.map (fun x => ([] : List ℕ).getD x 1)).sum = l.length := by simp
    rw [Nat.add_right_comm, probability_choice hL hl hsum.symm hpos (hd _ hpos (Nat.le_refl _))
      (Q := fun y r => y ∈ T ∧ ∃ new s', Qsc.randomLoop (lottery L) [] k (l.erase y) (vs ++ [y]) r =
        .ok (vs ++ [y] ++ new, s') ∧ new.toFinset = T.erase y ∧ K (vs ++ [y] ++ new) s') ?_]
    · have hterm : ∀ y ∈ l.toFinset, ((([] : List ℕ).getD y 1 : ℕ) : ℚ) / l.length *
          Probability L (k + N) (fun r => y ∈ T ∧ ∃ new s', Qsc.randomLoop (lottery L) [] k (l.erase y) (vs ++ [y]) r =
            .ok (vs ++ [y] ++ new, s') ∧ new.toFinset = T.erase y ∧ K (vs ++ [y] ++ new) s') =
          if y ∈ T then 1 / (l.length : ℚ) * (p / ((l.length - 1).choose k : ℕ)) else 0 := by
        intro y hy
        split
        · rename_i hyT
          have hlen : (l.erase y).length = l.length - 1 := List.length_erase_of_mem (hT y hyT)
          have := ih (l := l.erase y) (vs := vs ++ [y]) (T := T.erase y) (hl.erase y)
            (fun t h1 h2 => hd t h1 (by omega))
            (fun x hx => (List.mem_erase_of_ne (Finset.mem_erase.1 hx).1).2 (hT x (Finset.mem_erase.1 hx).2))
            (by rw [Finset.card_erase_of_mem hyT, hk]; rfl)
            (fun new h1 h2 => by
              rw [List.append_assoc]
              refine hK (y :: new) (List.nodup_cons.2 ⟨fun h => ?_, h1⟩) ?_
              · have := List.mem_toFinset.2 h
                rw [h2] at this
                exact (Finset.mem_erase.1 this).1 rfl
              · rw [List.toFinset_cons, h2, Finset.insert_erase hyT])
          rw [hlen] at this
          rw [← this]
          rw [show ((([] : List ℕ).getD y 1 : ℕ) : ℚ) = 1 by simp]
          congr 1
          exact probability_congr (fun r _ _ => ⟨fun h => h.2, fun h => ⟨hyT, h⟩⟩)
        · rename_i hyT
          rw [probability_false (fun r _ _ h => hyT h.1), mul_zero]
      rw [Finset.sum_congr rfl hterm, Finset.sum_ite, Finset.sum_const_zero, add_zero, Finset.sum_const, nsmul_eq_mul]
      have hfil : l.toFinset.filter (fun y => y ∈ T) = T := by
        ext x
        rw [Finset.mem_filter, List.mem_toFinset]
        exact ⟨fun h => h.2, fun h => ⟨hT x h, h⟩⟩
      rw [hfil, hk]
      have hkl : k + 1 ≤ l.length := by
        rw [← hk, ← List.toFinset_card_of_nodup hl]
        exact Finset.card_le_card (fun x hx => List.mem_toFinset.2 (hT x hx))
      obtain ⟨n, hn⟩ : ∃ n, l.length = n + 1 := ⟨l.length - 1, by omega⟩
      rw [hn, Nat.add_sub_cancel]
      have hc := Nat.add_one_mul_choose_eq n k
      have h1 : 0 < n.choose k := Nat.choose_pos (by omega)
      have h2 : 0 < (n + 1).choose (k + 1) := Nat.choose_pos (by omega)
      have hc' : ((n + 1 : ℕ) : ℚ) * (n.choose k : ℕ) = ((n + 1).choose (k + 1) : ℕ) * ((k + 1 : ℕ) : ℚ) := by
        exact_mod_cast hc
      have h1' : ((n.choose k : ℕ) : ℚ) ≠ 0 := by exact_mod_cast h1.ne'
      have h2' : (((n + 1).choose (k + 1) : ℕ) : ℚ) ≠ 0 := by exact_mod_cast h2.ne'
      have h3' : ((n + 1 : ℕ) : ℚ) ≠ 0 := by exact_mod_cast Nat.succ_ne_zero n
      have e : ((k + 1 : ℕ) : ℚ) * (1 / ((n + 1 : ℕ) : ℚ) * (p / (n.choose k : ℕ))) =
          p * ((((n + 1).choose (k + 1) : ℕ) : ℚ) * ((k + 1 : ℕ) : ℚ)) /
            ((((n + 1 : ℕ) : ℚ) * (n.choose k : ℕ)) * ((n + 1).choose (k + 1) : ℕ)) := by
        rw [one_div]
        rw [eq_div_iff (mul_ne_zero (mul_ne_zero h3' h1') h2'), div_eq_mul_inv]
        rw [show ((k + 1 : ℕ) : ℚ) * ((((n + 1 : ℕ) : ℚ))⁻¹ * (p * ((n.choose k : ℕ) : ℚ)⁻¹)) *
            ((((n + 1 : ℕ) : ℚ)) * (n.choose k : ℕ) * ((n + 1).choose (k + 1) : ℕ)) =
          p * ((((n + 1).choose (k + 1) : ℕ) : ℚ) * ((k + 1 : ℕ) : ℚ)) *
            ((((n + 1 : ℕ) : ℚ) * ((n + 1 : ℕ) : ℚ)⁻¹) * (((n.choose k : ℕ) : ℚ) * ((n.choose k : ℕ) : ℚ)⁻¹)) by ring]
        rw [mul_inv_cancel₀ h3', mul_inv_cancel₀ h1', one_mul, mul_one]
      rw [e, ← hc', mul_comm p, mul_div_mul_left _ _ (mul_ne_zero h3' h1')]
    · intro a r
      constructor
      · rintro ⟨new, s', h1, h2, h3⟩
        obtain ⟨y, h4, h5⟩ := randomLoop_cons.1 h1
        rw [hsum] at h4
        obtain ⟨new', h6, h7, -, h8⟩ := randomLoop_ok (hl.erase y) h5
        rw [h6] at h5
        have h9 : new = y :: new' := by
          rw [List.append_assoc] at h6
          exact List.append_cancel_left h6
        subst h9
        have hy : y ∉ new' := fun h => by
          have := (h8 y h).1
          exact absurd rfl ((hl.mem_erase_iff).1 this).1
        refine ⟨y, h4, ?_, new', s', h5, ?_, ?_⟩
        · rw [← h2]; simp
        · rw [← h2, List.toFinset_cons, Finset.erase_insert (fun h => hy (List.mem_toFinset.1 h))]
        · rw [List.append_assoc]; exact h3
      · rintro ⟨y, h1, h2, new, s', h3, h4, h5⟩
        rw [List.append_assoc] at h3 h5
        refine ⟨y :: new, s', randomLoop_cons.2 ⟨y, by rw [hsum]; exact h1, h3⟩, ?_, h5⟩
        rw [List.toFinset_cons, h4, Finset.insert_erase h2]

end FA
