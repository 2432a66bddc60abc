import Verif.Lemmas.Base
import Verif.Lemmas.QuorumSet
import Verif.Lemmas.Shrinking

/-!
# The derived order on quorum sets is a total order; sorting is canonical
-/

namespace FA.QuorumSet
open FA

/-- Transitivity at the level of comparison results. -/
def Tr (a b c : Ordering) : Prop :=
  (a ≠ .gt → b ≠ .gt → c ≠ .gt) ∧ ((a = .lt ∨ b = .lt) → a ≠ .gt → b ≠ .gt → c = .lt)

theorem Tr.then {a b c a' b' c' : Ordering} (h : Tr a b c) (h' : Tr a' b' c') :
    Tr (a.then a') (b.then b') (c.then c') := by
  unfold Tr at *
  cases a <;> cases b <;> cases c <;> simp_all [Ordering.then]

theorem tr_compare (a b c : ℕ) : Tr (compare a b) (compare b c) (compare a c) := by
  unfold Tr
  simp only [ne_eq, Nat.compare_eq_gt, Nat.compare_eq_lt]
  omega

theorem tr_cmpIds (a b c : List ℕ) : Tr (cmpIds a b) (cmpIds b c) (cmpIds a c) := by
  induction a generalizing b c with
  | nil =>
    cases b <;> cases c <;> simp [cmpIds, Tr]
  | cons x a ih =>
    cases b with
    | nil => cases c <;> simp [cmpIds, Tr]
    | cons y b =>
      cases c with
      | nil => simp [cmpIds, Tr]
      | cons z c =>
        simp only [cmpIds]
        exact (tr_compare x y z).then (ih b c)

theorem tr_cmp (a b c : QuorumSet) : Tr (cmp a b) (cmp b c) (cmp a c) := by
  induction a using QuorumSet.induct generalizing b c with
  | h t vs qs ih =>
    obtain ⟨t', vs', qs'⟩ := b
    obtain ⟨t'', vs'', qs''⟩ := c
    simp only [cmp]
    refine (tr_compare t t' t'').then ((tr_cmpIds vs vs' vs'').then ?_)
    induction qs generalizing qs' qs'' with
    | nil => cases qs' <;> cases qs'' <;> simp [cmpList, Tr]
    | cons q qs ihq =>
      cases qs' with
      | nil => cases qs'' <;> simp [cmpList, Tr]
      | cons q' qs' =>
        cases qs'' with
        | nil => simp [cmpList, Tr]
        | cons q'' qs'' =>
          simp only [cmpList]
          exact (ih q List.mem_cons_self q' q'').then
            (ihq (fun p hp => ih p (List.mem_cons_of_mem _ hp)) qs' qs'')

theorem then_swap (a b : Ordering) : (a.then b).swap = a.swap.then b.swap := by
  cases a <;> rfl

theorem compare_swap (a b : ℕ) : (compare a b).swap = compare b a := by
  rcases Nat.lt_trichotomy a b with h | h | h
  · rw [Nat.compare_eq_lt.2 h, Nat.compare_eq_gt.2 h]; rfl
  · rw [Nat.compare_eq_eq.2 h, Nat.compare_eq_eq.2 h.symm]; rfl
  · rw [Nat.compare_eq_gt.2 h, Nat.compare_eq_lt.2 h]; rfl

theorem cmpIds_swap (a b : List ℕ) : (cmpIds a b).swap = cmpIds b a := by
  induction a generalizing b with
  | nil => cases b <;> rfl
  | cons x a ih =>
    cases b with
    | nil => rfl
    | cons y b => simp only [cmpIds, then_swap, compare_swap, ih]

theorem cmp_swap (a b : QuorumSet) : (cmp a b).swap = cmp b a := by
  induction a using QuorumSet.induct generalizing b with
  | h t vs qs ih =>
    obtain ⟨t', vs', qs'⟩ := b
    simp only [cmp, then_swap, compare_swap, cmpIds_swap]
    congr 2
    induction qs generalizing qs' with
    | nil => cases qs' <;> rfl
    | cons q qs ihq =>
      cases qs' with
      | nil => rfl
      | cons q' qs' =>
        simp only [cmpList, then_swap]
        rw [ih q List.mem_cons_self, ihq (fun p hp => ih p (List.mem_cons_of_mem _ hp))]

theorem then_eq (a b : Ordering) : a.then b = .eq ↔ a = .eq ∧ b = .eq := by
  cases a <;> simp [Ordering.then]

theorem cmpIds_eq (a b : List ℕ) : cmpIds a b = .eq ↔ a = b := by
  induction a generalizing b with
  | nil => cases b <;> simp [cmpIds]
  | cons x a ih =>
    cases b with
    | nil => simp [cmpIds]
    | cons y b => simp only [cmpIds, then_eq, Nat.compare_eq_eq, ih, List.cons.injEq]

theorem cmp_eq (a b : QuorumSet) : cmp a b = .eq ↔ a = b := by
  induction a using QuorumSet.induct generalizing b with
  | h t vs qs ih =>
    obtain ⟨t', vs', qs'⟩ := b
    simp only [cmp, then_eq, Nat.compare_eq_eq, cmpIds_eq, QuorumSet.mk.injEq]
    refine and_congr Iff.rfl (and_congr Iff.rfl ?_)
    induction qs generalizing qs' with
    | nil => cases qs' <;> simp [cmpList]
    | cons q qs ihq =>
      cases qs' with
      | nil => simp [cmpList]
      | cons q' qs' =>
        simp only [cmpList, then_eq, List.cons.injEq]
        rw [ih q List.mem_cons_self, ihq (fun p hp => ih p (List.mem_cons_of_mem _ hp))]

theorem le_trans' {a b c : QuorumSet} (h : le a b) (h' : le b c) : le a c := (tr_cmp a b c).1 h h'

theorem le_total' (a b : QuorumSet) : le a b ∨ le b a := by
  unfold le
  rw [← cmp_swap b a]
  cases cmp b a <;> simp [Ordering.swap]

theorem le_antisymm' {a b : QuorumSet} (h : le a b) (h' : le b a) : a = b := by
  rw [← cmp_eq]
  unfold le at *
  rw [← cmp_swap a b] at h'
  cases hc : cmp a b <;> simp_all [Ordering.swap]

instance : Std.Total le := ⟨le_total'⟩
instance : IsTrans QuorumSet le := ⟨fun _ _ _ => le_trans'⟩
instance : Std.Antisymm le := ⟨fun _ _ => le_antisymm'⟩

theorem sortQs_pairwise (l : List QuorumSet) : (sortQs l).Pairwise le :=
  List.pairwise_insertionSort le l

theorem sortQs_of_perm {l l' : List QuorumSet} (h : l.Perm l') : sortQs l = sortQs l' :=
  (((sortQs_perm l).trans h).trans (sortQs_perm l').symm).eq_of_pairwise'
    (sortQs_pairwise l) (sortQs_pairwise l')

theorem sortQs_of_pairwise {l : List QuorumSet} (h : l.Pairwise le) : sortQs l = l :=
  (sortQs_perm l).eq_of_pairwise' (sortQs_pairwise l) h

end FA.QuorumSet

namespace FA

theorem sortIds_of_perm {l l' : List ℕ} (h : l.Perm l') : sortIds l = sortIds l' :=
  (((sortIds_perm l).trans h).trans (sortIds_perm l').symm).eq_of_pairwise'
    (sortIds_pairwise l) (sortIds_pairwise l')

theorem sortIds_of_pairwise {l : List ℕ} (h : l.Pairwise (· ≤ ·)) : sortIds l = l :=
  (sortIds_perm l).eq_of_pairwise' (sortIds_pairwise l) h

end FA
