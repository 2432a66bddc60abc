import Mathlib.Data.Fin.Tuple.Basic
import Mathlib.Data.Nat.Count
import Mathlib.Algebra.BigOperators.Group.Finset.Basic
import Mathlib.Algebra.BigOperators.Ring.Finset
import Mathlib.Algebra.BigOperators.Field
import Mathlib.Tactic.FieldSimp
import Mathlib.Tactic.Ring
import Mathlib.Data.Nat.Choose.Basic
import Verif.SpecProbability

/-!
# Lemmas about probabilities
-/

namespace FA
open Spec

theorem probability_zero {L : ℕ} {P : List ℕ → Prop} (h : P []) : Probability L 0 P = 1 := by
  unfold Probability
  simp [h]

theorem probability_congr {L N : ℕ} {P Q : List ℕ → Prop}
    (h : ∀ r : List ℕ, r.length = N → (∀ v ∈ r, v < L) → (P r ↔ Q r)) : Probability L N P = Probability L N Q := by
  classical
  unfold Probability
  congr 3
  apply Finset.filter_congr
  intro r _
  apply h
  · simp
  · intro v hv
    obtain ⟨i, rfl⟩ := List.mem_ofFn.1 hv
    exact (r i).2

theorem probability_false {L N : ℕ} {P : List ℕ → Prop}
    (h : ∀ r : List ℕ, r.length = N → (∀ v ∈ r, v < L) → ¬ P r) : Probability L N P = 0 := by
  rw [probability_congr (Q := fun _ => False) (fun r h1 h2 => ⟨fun hp => h r h1 h2 hp, False.elim⟩)]
  unfold Probability
  simp

theorem probability_true {L N : ℕ} (hL : 0 < L) {P : List ℕ → Prop}
    (h : ∀ r : List ℕ, r.length = N → (∀ v ∈ r, v < L) → P r) : Probability L N P = 1 := by
  rw [probability_congr (Q := fun _ => True) (fun r h1 h2 => ⟨fun _ => trivial, fun _ => h r h1 h2⟩)]
  unfold Probability
  have : (L : ℚ) ≠ 0 := by exact_mod_cast hL.ne'
  simp [this]

theorem probability_succ {L N : ℕ} (P : List ℕ → Prop) :
    Probability L (N + 1) P = (∑ a ∈ Finset.range L, Probability L N (fun r => P (a :: r))) / L := by
  classical
  unfold Probability
  have hcard : (Finset.univ.filter (fun r : Fin (N + 1) → Fin L => P (List.ofFn (fun i => (r i : ℕ))))).card =
      ∑ a : Fin L, (Finset.univ.filter
        (fun r : Fin N → Fin L => P ((a : ℕ) :: List.ofFn (fun i => (r i : ℕ))))).card := by
    rw [← Finset.card_sigma]
    refine Finset.card_bij' (fun r _ => ⟨r 0, fun i => r i.succ⟩) (fun p _ => Fin.cons p.1 p.2) ?_ ?_ ?_ ?_
    · intro r hr
      simp only [Finset.mem_sigma, Finset.mem_univ, Finset.mem_filter, true_and] at hr ⊢
      rw [List.ofFn_succ] at hr
      exact hr
    · rintro ⟨a, r⟩ hr
      simp only [Finset.mem_sigma, Finset.mem_univ, Finset.mem_filter, true_and] at hr ⊢
      rw [List.ofFn_succ]
      simpa using hr
    · intro r _
      funext i
      refine Fin.cases ?_ (fun i => ?_) i <;> simp
    · rintro ⟨a, r⟩ _
      simp
  rw [hcard, Finset.sum_range (fun a => ((Finset.univ.filter
        (fun r : Fin N → Fin L => P (a :: List.ofFn (fun i => (r i : ℕ))))).card : ℚ) / (L : ℚ) ^ N),
    ← Finset.sum_div, div_div, ← pow_succ]
  push_cast
  rfl

/-! ### Weighted choices -/

theorem count_candidateAt {w : ℕ → ℕ} {l : List ℕ} (hl : l.Nodup) {y : ℕ} (hy : y ∈ l) :
    Nat.count (fun a => candidateAt w a l = some y) (l.map w).sum = w y := by
  induction l with
  | nil => cases hy
  | cons x l ih =>
    obtain ⟨hx, hl'⟩ := List.nodup_cons.1 hl
    rw [List.map_cons, List.sum_cons, Nat.count_add]
    have h1 : Nat.count (fun a => candidateAt w a (x :: l) = some y) (w x) = if x = y then w x else 0 := by
      split
      · rename_i h
        subst h
        rw [Nat.count_iff_forall]
        intro a ha
        rw [candidateAt, if_pos ha]
      · rename_i h
        rw [Nat.count_iff_forall_not]
        intro a ha
        rw [candidateAt, if_pos ha]
        exact fun hc => h (Option.some.inj hc)
    have h2 : ∀ k, candidateAt w (w x + k) (x :: l) = candidateAt w k l := by
      intro k
      rw [candidateAt, if_neg (by omega), Nat.add_sub_cancel_left]
    simp only [h2]
    rw [h1]
    rcases List.mem_cons.1 hy with rfl | hy
    · rw [if_pos rfl]
      have : Nat.count (fun a => candidateAt w a l = some y) (l.map w).sum = 0 := by
        rw [Nat.count_iff_forall_not]
        intro a _ hc
        exact hx (candidateAt_some hc).1
      rw [this, Nat.add_zero]
    · rw [if_neg (by rintro rfl; exact hx hy), ih hl' hy, Nat.zero_add]

theorem count_mod {p : ℕ → Prop} [DecidablePred p] (t q : ℕ) :
    Nat.count (fun a => p (a % t)) (t * q) = q * Nat.count p t := by
  induction q with
  | zero => simp
  | succ q ih =>
    rw [Nat.mul_succ, Nat.count_add, ih, Nat.succ_mul]
    congr 1
    rw [Nat.count_eq_card_filter_range, Nat.count_eq_card_filter_range]
    congr 1
    apply Finset.filter_congr
    intro a ha
    rw [Nat.mul_add_mod, Nat.mod_eq_of_lt (Finset.mem_range.1 ha)]

/-- A weighted choice, followed by something that depends on the chosen candidate. -/
theorem probability_choice {L N : ℕ} (hL : 0 < L) {w : ℕ → ℕ} {l : List ℕ} (hl : l.Nodup) {t : ℕ}
    (ht : t = (l.map w).sum) (h0 : 0 < t) (hd : t ∣ L) {P : List ℕ → Prop} {Q : ℕ → List ℕ → Prop}
    (hP : ∀ a r, P (a :: r) ↔ ∃ y, candidateAt w (a % t) l = some y ∧ Q y r) :
    Probability L (N + 1) P = ∑ y ∈ l.toFinset, (w y : ℚ) / t * Probability L N (Q y) := by
  rw [probability_succ]
  obtain ⟨q, rfl⟩ := hd
  have hq : 0 < q := Nat.pos_of_mul_pos_left hL
  have hsome : ∀ a, ∃ y, candidateAt w (a % t) l = some y := by
    intro a
    have := candidateAt_lt (w := w) (l := l) (r := a % t) (by rw [← ht]; exact Nat.mod_lt _ h0)
    exact Option.ne_none_iff_exists'.1 this
  choose c hc using hsome
  have h1 : ∀ a, Probability (t * q) N (fun r => P (a :: r)) = Probability (t * q) N (Q (c a)) := by
    intro a
    apply probability_congr
    intro r _ _
    rw [hP, hc a]
    constructor
    · rintro ⟨y, h, h'⟩
      rw [Option.some.inj h]; exact h'
    · intro h; exact ⟨_, rfl, h⟩
  have hmem : ∀ a ∈ Finset.range (t * q), c a ∈ l.toFinset := by
    intro a _
    rw [List.mem_toFinset]
    exact (candidateAt_some (hc a)).1
  rw [← Finset.sum_fiberwise_of_maps_to hmem, Finset.sum_div]
  refine Finset.sum_congr rfl (fun y hy => ?_)
  rw [List.mem_toFinset] at hy
  have h2 : ∀ a ∈ (Finset.range (t * q)).filter (fun a => c a = y),
      Probability (t * q) N (fun r => P (a :: r)) = Probability (t * q) N (Q y) := by
    intro a ha
    rw [h1, (Finset.mem_filter.1 ha).2]
  rw [Finset.sum_congr rfl h2, Finset.sum_const, nsmul_eq_mul]
  have h3 : ((Finset.range (t * q)).filter (fun a => c a = y)).card = q * w y := by
    rw [← count_candidateAt (w := w) hl hy, ← ht, ← count_mod, Nat.count_eq_card_filter_range]
    congr 1
    apply Finset.filter_congr
    intro a _
    rw [hc a]
    exact ⟨fun h => by rw [h], fun h => Option.some.inj h⟩
  rw [h3]
  have ht' : (t : ℚ) ≠ 0 := by exact_mod_cast h0.ne'
  have hq' : (q : ℚ) ≠ 0 := by exact_mod_cast hq.ne'
  push_cast
  field_simp

theorem probability_choice_one {L N : ℕ} (hL : 0 < L) {w : ℕ → ℕ} {l : List ℕ} (hl : l.Nodup) {t : ℕ}
    (ht : t = (l.map w).sum) (h0 : 0 < t) (hd : t ∣ L) {y : ℕ} (hy : y ∈ l) {P Q : List ℕ → Prop}
    (hP : ∀ a r, P (a :: r) ↔ candidateAt w (a % t) l = some y ∧ Q r) :
    Probability L (N + 1) P = (w y : ℚ) / t * Probability L N Q := by
  rw [probability_choice hL hl ht h0 hd (Q := fun z r => z = y ∧ Q r) (by
    intro a r
    rw [hP]
    constructor
    · rintro ⟨h1, h2⟩; exact ⟨y, h1, rfl, h2⟩
    · rintro ⟨z, h1, rfl, h2⟩; exact ⟨h1, h2⟩)]
  rw [Finset.sum_eq_single y]
  · congr 1
    exact probability_congr (fun r _ _ => ⟨fun h => h.2, fun h => ⟨rfl, h⟩⟩)
  · intro z _ hz
    rw [probability_false (fun r _ _ h => hz h.1), mul_zero]
  · intro h
    exact absurd (List.mem_toFinset.2 hy) h

end FA
