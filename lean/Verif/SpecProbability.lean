import Mathlib.Data.Fintype.Pi
import Mathlib.Data.Fintype.EquivFin
import Mathlib.Algebra.BigOperators.Fin
import Mathlib.Data.Rat.Defs
import Mathlib.Algebra.Order.Ring.Rat
import Verif.Model.Graph

/-!
# Specification: probabilities of random choices
-/

namespace FA.Spec
open FA

open Classical in
/-- The probability of `P` if `N` numbers below `L` are drawn independently, all with equal probability. -/
noncomputable def Probability (L N : ℕ) (P : List ℕ → Prop) : ℚ :=
  ((Finset.univ.filter (fun r : Fin N → Fin L => P (List.ofFn (fun i => (r i : ℕ))))).card : ℚ) / (L : ℚ) ^ N

/-- The candidates are lined up, each taking as many places as its weight; `r` is the number of a place. -/
def candidateAt (w : ℕ → ℕ) : ℕ → List ℕ → Option ℕ
  | _, [] => none
  | r, x :: l => if r < w x then some x else candidateAt w (r - w x) l

/-- Orders a list by choosing one element after the other. -/
def orderBy : ℕ → List ℕ → List ℕ → List ℕ × List ℕ
  | 0, s, l => (l, s)
  | k + 1, s, l =>
    match candidateAt (fun _ => 1) (s.headD 0 % l.length) l with
    | none => (l, s)
    | some x =>
      let r := orderBy k s.tail (l.erase x)
      (x :: r.1, r.2)

theorem candidateAt_some {w : ℕ → ℕ} {r : ℕ} {l : List ℕ} {x : ℕ} (h : candidateAt w r l = some x) :
    x ∈ l ∧ 0 < w x := by
  induction l generalizing r with
  | nil => cases h
  | cons y l ih =>
    rw [candidateAt] at h
    split at h
    · obtain rfl := Option.some.inj h
      exact ⟨List.mem_cons_self, by omega⟩
    · exact ⟨List.mem_cons_of_mem _ (ih h).1, (ih h).2⟩

theorem candidateAt_lt {w : ℕ → ℕ} {r : ℕ} {l : List ℕ} (h : r < (l.map w).sum) : candidateAt w r l ≠ none := by
  induction l generalizing r with
  | nil => simp at h
  | cons y l ih =>
    rw [candidateAt]
    split
    · simp
    · rw [List.map_cons, List.sum_cons] at h
      exact ih (by omega)

theorem candidateAt_none {w : ℕ → ℕ} {r : ℕ} {l : List ℕ} (h : candidateAt w (r % (l.map w).sum) l = none) :
    ∀ x ∈ l, w x = 0 := by
  rcases Nat.eq_zero_or_pos (l.map w).sum with h0 | h0
  · intro x hx
    have hle : ∀ m : List ℕ, x ∈ m → w x ≤ (m.map w).sum := by
      intro m hm
      induction m with
      | nil => cases hm
      | cons y m ih =>
        rw [List.map_cons, List.sum_cons]
        rcases List.mem_cons.1 hm with rfl | hm
        · omega
        · have := ih hm; omega
    have := hle l hx
    omega
  · exact absurd h (candidateAt_lt (Nat.mod_lt _ h0))

theorem orderBy_perm (k : ℕ) (s l : List ℕ) : (orderBy k s l).1.Perm l := by
  induction k generalizing s l with
  | zero => exact List.Perm.refl _
  | succ k ih =>
    rw [orderBy]
    split
    · exact List.Perm.refl _
    · rename_i x hx
      exact ((ih s.tail (l.erase x)).cons x).trans (List.perm_cons_erase (candidateAt_some hx).1).symm

/-- A generator that is given numbers that have been drawn below `L`. Each choice uses one of them: weighted choices
divide it by the sum of weights and take the candidate at the remainder; coins compare it with the probability. -/
abbrev lottery (L : ℕ) : Rand where
  State := List ℕ
  shuffle s l := orderBy l.length s l
  shuffle_perm s l := orderBy_perm _ _ _
  chooseWeighted s w l := (candidateAt w (s.headD 0 % (l.map w).sum) l, s.tail)
  chooseWeighted_some _ _ _ _ h := candidateAt_some h
  chooseWeighted_none _ _ _ h := candidateAt_none h
  choose s l := (candidateAt (fun _ => 1) (s.headD 0 % (l.map (fun _ => 1)).sum) l, s.tail)
  choose_some _ _ _ h := (candidateAt_some h).1
  choose_none _ l h := by
    cases l with
    | nil => rfl
    | cons x l => exact absurd (candidateAt_none h x List.mem_cons_self) Nat.one_ne_zero
  genBool s p := (decide ((s.headD 0 : ℚ) < p * L), s.tail)
  genBool_zero s := by
    rw [zero_mul, decide_eq_false_iff_not, not_lt]
    exact Nat.cast_nonneg _

/-- The probability that the listed candidates are chosen one after the other, without putting them back. -/
def InTurn (w : ℕ → ℕ) : List ℕ → List ℕ → ℚ
  | _, [] => 1
  | l, j :: js => (w j : ℚ) / ((l.map w).sum : ℕ) * InTurn w (l.erase j) js

end FA.Spec
