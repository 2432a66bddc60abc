import Verif.Model.Base
import Mathlib.Data.List.Lattice
import Mathlib.Data.Finset.Union

/-! Lemmas about the basic data types. -/

namespace FA

@[simp] theorem mem_elems {s : NodeSet} {x : ℕ} : x ∈ elems s ↔ x ∈ s := by
  unfold elems
  simp only [List.mem_filter, List.mem_range, decide_eq_true_eq, and_iff_right_iff_imp]
  intro h
  exact Nat.lt_succ_of_le (Finset.le_sup (f := id) h)

theorem elems_pairwise (s : NodeSet) : (elems s).Pairwise (· < ·) :=
  List.Pairwise.filter _ List.pairwise_lt_range

theorem elems_nodup (s : NodeSet) : (elems s).Nodup :=
  (elems_pairwise s).imp (fun h => Nat.ne_of_lt h)

@[simp] theorem toFinset_elems (s : NodeSet) : (elems s).toFinset = s := by
  ext x; simp

@[simp] theorem length_elems (s : NodeSet) : (elems s).length = s.card := by
  conv_rhs => rw [← toFinset_elems s]
  exact (List.toFinset_card_of_nodup (elems_nodup s)).symm

theorem elems_injective : Function.Injective elems := by
  intro a b h
  rw [← toFinset_elems a, h, toFinset_elems]

theorem pairwise_lt_eq {l₁ l₂ : List ℕ} (h₁ : l₁.Pairwise (· < ·)) (h₂ : l₂.Pairwise (· < ·))
    (h : ∀ x, x ∈ l₁ ↔ x ∈ l₂) : l₁ = l₂ :=
  List.Pairwise.eq_of_mem_iff h₁ h₂ h

@[simp] theorem elems_empty : elems ∅ = [] := rfl

theorem elems_eq_nil {s : NodeSet} : elems s = [] ↔ s = ∅ := by
  rw [← elems_empty]; exact elems_injective.eq_iff

theorem elems_range (n : ℕ) : elems (Finset.range n) = List.range n :=
  pairwise_lt_eq (elems_pairwise _) List.pairwise_lt_range (by simp)

/-! ### Orders on node sets -/

instance : IsTrans NodeSet lexLe := ⟨fun _ _ _ h₁ h₂ => le_trans (α := List ℕ) h₁ h₂⟩
instance : Std.Total lexLe := ⟨fun a b => le_total (α := List ℕ) (elems a) (elems b)⟩
instance : Std.Antisymm lexLe :=
  ⟨fun _ _ h₁ h₂ => elems_injective (le_antisymm (α := List ℕ) h₁ h₂)⟩

/-- The order in which results are listed: by size, then lexicographically. -/
def lenLexLe (a b : NodeSet) : Prop := a.card < b.card ∨ (a.card = b.card ∧ lexLe a b)

instance : IsTrans NodeSet lenLexLe := ⟨by
  rintro a b c (h₁ | ⟨h₁, h₁'⟩) (h₂ | ⟨h₂, h₂'⟩)
  · exact .inl (h₁.trans h₂)
  · exact .inl (h₂ ▸ h₁)
  · exact .inl (h₁ ▸ h₂)
  · exact .inr ⟨h₁.trans h₂, trans_of lexLe h₁' h₂'⟩⟩

instance : Std.Antisymm lenLexLe := ⟨by
  rintro a b (h₁ | ⟨h₁, h₁'⟩) (h₂ | ⟨h₂, h₂'⟩)
  · omega
  · omega
  · omega
  · exact antisymm_of lexLe h₁' h₂'⟩

theorem sortLex_perm (l : List NodeSet) : (sortLex l).Perm l := List.perm_insertionSort _ _
theorem sortLex_pairwise (l : List NodeSet) : (sortLex l).Pairwise lexLe :=
  List.pairwise_insertionSort _ _
theorem sortLen_perm (l : List NodeSet) : (sortLen l).Perm l := List.perm_insertionSort _ _

theorem orderedInsert_len_pairwise (x : NodeSet) (l : List NodeSet) (hl : l.Pairwise lenLexLe)
    (hx : ∀ y ∈ l, lexLe x y) :
    (l.orderedInsert (fun a b => a.card ≤ b.card) x).Pairwise lenLexLe := by
  induction l with
  | nil => simp
  | cons b l ih =>
    rw [List.orderedInsert_cons]
    rw [List.pairwise_cons] at hl
    split
    next h =>
      rw [List.pairwise_cons]
      refine ⟨?_, List.pairwise_cons.2 hl⟩
      have hb : lenLexLe x b := by
        rcases Nat.lt_or_eq_of_le h with h | h
        · exact .inl h
        · exact .inr ⟨h, hx b (by simp)⟩
      intro y hy
      rcases List.mem_cons.1 hy with rfl | hy
      · exact hb
      · exact trans_of lenLexLe hb (hl.1 y hy)
    next h =>
      rw [List.pairwise_cons]
      refine ⟨?_, ih hl.2 (fun y hy => hx y (List.mem_cons_of_mem _ hy))⟩
      intro y hy
      rw [List.mem_orderedInsert] at hy
      rcases hy with rfl | hy
      · exact .inl (by omega)
      · exact hl.1 y hy

theorem sortLen_pairwise (l : List NodeSet) (hl : l.Pairwise lexLe) :
    (sortLen l).Pairwise lenLexLe := by
  induction l with
  | nil => simp [sortLen]
  | cons x l ih =>
    rw [List.pairwise_cons] at hl
    have hp := sortLen_perm l
    simp only [sortLen, List.insertionSort_cons]
    exact orderedInsert_len_pairwise x _ (ih hl.2) (fun y hy => hl.1 y (hp.mem_iff.1 hy))

/-- Sorted lists with the same members and without duplicates are equal. -/
theorem eq_of_lenLex {l₁ l₂ : List NodeSet} (hs₁ : l₁.Pairwise lenLexLe)
    (hs₂ : l₂.Pairwise lenLexLe) (hn₁ : l₁.Nodup) (hn₂ : l₂.Nodup)
    (h : ∀ S, S ∈ l₁ ↔ S ∈ l₂) : l₁ = l₂ :=
  List.Perm.eq_of_pairwise' hs₁ hs₂ ((List.perm_ext_iff_of_nodup hn₁ hn₂).2 h)

/-! ### Sorting IDs -/

theorem sortIds_perm (l : List ℕ) : (sortIds l).Perm l := List.perm_insertionSort _ _
theorem sortIds_pairwise (l : List ℕ) : (sortIds l).Pairwise (· ≤ ·) :=
  List.pairwise_insertionSort _ _
@[simp] theorem mem_sortIds {l : List ℕ} {x : ℕ} : x ∈ sortIds l ↔ x ∈ l :=
  (sortIds_perm l).mem_iff

/-! ### Unions -/

theorem foldl_union (l : List NodeSet) (acc : NodeSet) :
    l.foldl (fun acc s => acc ∪ s) acc = acc ∪ unionAll l := by
  unfold unionAll
  induction l generalizing acc with
  | nil => simp
  | cons a l ih => simp only [List.foldl_cons]; rw [ih, ih (∅ ∪ a)]; simp [Finset.union_assoc]

@[simp] theorem unionAll_nil : unionAll [] = ∅ := rfl
@[simp] theorem unionAll_cons (a : NodeSet) (l : List NodeSet) :
    unionAll (a :: l) = a ∪ unionAll l := by
  rw [unionAll, List.foldl_cons, foldl_union]; simp

@[simp] theorem mem_unionAll {l : List NodeSet} {x : ℕ} :
    x ∈ unionAll l ↔ ∃ s ∈ l, x ∈ s := by
  induction l with
  | nil => simp
  | cons a l ih => simp [ih]

theorem unionAll_subset {l : List NodeSet} {S : NodeSet} : unionAll l ⊆ S ↔ ∀ s ∈ l, s ⊆ S := by
  constructor
  · intro h s hs x hx
    exact h (mem_unionAll.2 ⟨s, hs, hx⟩)
  · intro h x hx
    obtain ⟨s, hs, hx⟩ := mem_unionAll.1 hx
    exact h s hs hx

/-! ### Combinations and products -/

theorem mem_combinations {α : Type} {k : ℕ} {l c : List α} :
    c ∈ combinations k l ↔ c.Sublist l ∧ c.length = k := by
  induction l generalizing k c with
  | nil =>
    cases k with
    | zero => simp [combinations]
    | succ k =>
      simp only [combinations, List.not_mem_nil, List.sublist_nil, false_iff, not_and]
      rintro rfl; simp
  | cons x xs ih =>
    cases k with
    | zero =>
      simp only [combinations, List.mem_singleton]
      constructor
      · rintro rfl; simp
      · rintro ⟨_, h⟩; exact List.length_eq_zero_iff.1 h
    | succ k =>
      simp only [combinations, List.mem_append, List.mem_map, ih]
      constructor
      · rintro (⟨c', ⟨h₁, h₂⟩, rfl⟩ | ⟨h₁, h₂⟩)
        · exact ⟨h₁.cons_cons x, by simp [h₂]⟩
        · exact ⟨h₁.cons x, h₂⟩
      · rintro ⟨h₁, h₂⟩
        cases h₁ with
        | cons _ h => exact .inr ⟨h, h₂⟩
        | cons_cons _ h => exact .inl ⟨_, ⟨h, by simpa using h₂⟩, rfl⟩

theorem mem_product {α : Type} {gs : List (List α)} {c : List α} :
    c ∈ product gs ↔ List.Forall₂ (fun x g => x ∈ g) c gs := by
  induction gs generalizing c with
  | nil => simp [product]
  | cons g gs ih =>
    simp only [product, List.mem_flatMap, List.mem_map, ih]
    constructor
    · rintro ⟨x, hx, c', hc', rfl⟩; exact .cons hx hc'
    · intro h; cases h with
      | cons hx hc => exact ⟨_, hx, _, hc, rfl⟩

theorem mem_multiCartesianProduct {α : Type} {gs : List (List α)} {c : List α} :
    c ∈ multiCartesianProduct gs ↔ gs ≠ [] ∧ List.Forall₂ (fun x g => x ∈ g) c gs := by
  cases gs with
  | nil => simp [multiCartesianProduct]
  | cons g gs => simp [multiCartesianProduct, mem_product]

theorem multiCartesianProduct_eq_product {α : Type} {gs : List (List α)} (h : gs ≠ []) :
    multiCartesianProduct gs = product gs := by
  cases gs with
  | nil => contradiction
  | cons g gs => rfl

end FA
