import Verif.Lemmas.ScaleFree
import Verif.Lemmas.Shrinking
import Mathlib.Data.Finset.Card
import Mathlib.Data.Finset.Prod
import Mathlib.Algebra.BigOperators.Group.Finset.Piecewise
import Mathlib.Algebra.BigOperators.Group.Finset.Sigma

/-!
# Lemmas about small world graphs
-/

namespace FA
open Spec Graph

/-! ### Matrices -/

/-- All rows and the matrix itself have length `n`. -/
def Square (n : ℕ) (m : List (List Bool)) : Prop := m.length = n ∧ ∀ r ∈ m, r.length = n

/-- The entry of a matrix. -/
def cell (m : List (List Bool)) (x y : ℕ) : Bool := (m.getD x []).getD y false

theorem Square.lt {n : ℕ} {m : List (List Bool)} (h : Square n m) {x y : ℕ} (hc : cell m x y = true) :
    y < n := by
  by_contra hy
  unfold cell at hc
  rw [List.getD_eq_getElem?_getD, List.getElem?_eq_none] at hc
  · cases hc
  · rw [List.getD_eq_getElem?_getD]
    cases hx : m[x]? with
    | none => exact Nat.zero_le _
    | some r =>
      have := h.2 r (List.mem_of_getElem? hx)
      simp only [Option.getD_some]; omega

theorem getM_ok {n : ℕ} {m : List (List Bool)} (h : Square n m) {i j : ℕ} (hi : i < n) (hj : j < n) :
    getM m i j = .ok (cell m i j) := by
  obtain ⟨h1, h2⟩ := h
  have hi' : i < m.length := by omega
  have hj' : j < m[i].length := by rw [h2 _ (List.getElem_mem hi')]; exact hj
  unfold getM getE
  rw [List.getElem?_eq_getElem hi']
  dsimp only
  rw [List.getElem?_eq_getElem hj']
  simp [cell, hi', hj']

theorem setM_spec {n : ℕ} {m : List (List Bool)} (h : Square n m) {i j : ℕ} (hi : i < n)
    (hj : j < n) (b : Bool) :
    ∃ m', setM m i j b = .ok m' ∧ Square n m' ∧
      ∀ x y, cell m' x y = if x = i ∧ y = j then b else cell m x y := by
  obtain ⟨h1, h2⟩ := h
  have hi' : i < m.length := by omega
  have hj' : j < m[i].length := by rw [h2 _ (List.getElem_mem hi')]; exact hj
  refine ⟨m.set i (m[i].set j b), ?_, ⟨by simpa using h1, ?_⟩, ?_⟩
  · unfold setM
    rw [List.getElem?_eq_getElem hi']
    dsimp only
    rw [if_pos hj']
  · intro r hr
    rcases List.mem_or_eq_of_mem_set hr with hr | rfl
    · exact h2 r hr
    · rw [List.length_set]; exact h2 _ (List.getElem_mem hi')
  · intro x y
    unfold cell
    by_cases hx : x = i
    · subst hx
      by_cases hy : y = j
      · subst hy
        simp [hi', hj']
      · simp only [hy, and_false, if_false, List.getD_eq_getElem?_getD, List.getElem?_set_self hi',
          Option.getD_some, List.getElem?_eq_getElem hi']
        rw [List.getElem?_set_ne (fun h => hy h.symm)]
    · rw [if_neg (fun h => hx h.1), List.getD_eq_getElem?_getD (l := m.set _ _),
        List.getElem?_set_ne (fun h => hx h.symm), ← List.getD_eq_getElem?_getD]

theorem setSym_spec {n : ℕ} {m : List (List Bool)} (h : Square n m) {i j : ℕ} (hi : i < n)
    (hj : j < n) (b : Bool) :
    ∃ m', setSym m i j b = .ok m' ∧ Square n m' ∧
      ∀ x y, cell m' x y = if (x = i ∧ y = j) ∨ (x = j ∧ y = i) then b else cell m x y := by
  obtain ⟨m1, h1, h2, h3⟩ := setM_spec h hi hj b
  obtain ⟨m2, g1, g2, g3⟩ := setM_spec h2 hj hi b
  refine ⟨m2, ?_, g2, fun x y => ?_⟩
  · unfold setSym; rw [h1]; exact g1
  · rw [g3, h3]
    by_cases ha : x = i ∧ y = j
    · simp [ha]
    · by_cases hb : x = j ∧ y = i
      · simp [hb]
      · simp [ha, hb]

/-- The number of entries that are set. -/
def cells (n : ℕ) (m : List (List Bool)) : ℕ :=
  ((Finset.range n ×ˢ Finset.range n).filter (fun p => cell m p.1 p.2 = true)).card

theorem cells_set {n : ℕ} {m m' : List (List Bool)} {i j : ℕ} (hi : i < n) (hj : j < n)
    (hij : i ≠ j) (h1 : cell m i j = false) (h2 : cell m j i = false)
    (h : ∀ x y, cell m' x y = if (x = i ∧ y = j) ∨ (x = j ∧ y = i) then true else cell m x y) :
    cells n m' = cells n m + 2 := by
  have : (Finset.range n ×ˢ Finset.range n).filter (fun p => cell m' p.1 p.2 = true) =
      insert (i, j) (insert (j, i)
        ((Finset.range n ×ˢ Finset.range n).filter (fun p => cell m p.1 p.2 = true))) := by
    ext ⟨x, y⟩
    simp only [Finset.mem_filter, Finset.mem_product, Finset.mem_range, Finset.mem_insert,
      Prod.mk.injEq]
    rw [h]
    by_cases hc : (x = i ∧ y = j) ∨ (x = j ∧ y = i)
    · rw [if_pos hc]
      constructor
      · rintro -
        rcases hc with hc | hc
        · exact .inl hc
        · exact .inr (.inl hc)
      · rintro -
        rcases hc with ⟨rfl, rfl⟩ | ⟨rfl, rfl⟩
        · exact ⟨⟨hi, hj⟩, rfl⟩
        · exact ⟨⟨hj, hi⟩, rfl⟩
    · rw [if_neg hc]
      constructor
      · exact fun h => .inr (.inr h)
      · rintro (h | h | h)
        · exact absurd (.inl h) hc
        · exact absurd (.inr h) hc
        · exact h
  unfold cells
  rw [this, Finset.card_insert_of_notMem, Finset.card_insert_of_notMem]
  · simp [h2]
  · simp only [Finset.mem_insert, Prod.mk.injEq, Finset.mem_filter, h1]
    rintro (⟨h, -⟩ | ⟨-, h⟩)
    · exact hij h
    · cases h

theorem cells_unset {n : ℕ} {m m' : List (List Bool)} {i j : ℕ} (hi : i < n) (hj : j < n)
    (hij : i ≠ j) (h1 : cell m i j = true) (h2 : cell m j i = true)
    (h : ∀ x y, cell m' x y = if (x = i ∧ y = j) ∨ (x = j ∧ y = i) then false else cell m x y) :
    cells n m = cells n m' + 2 := by
  refine cells_set hi hj hij (by rw [h, if_pos (.inl ⟨rfl, rfl⟩)])
    (by rw [h, if_pos (.inr ⟨rfl, rfl⟩)]) (fun x y => ?_)
  rw [h]
  by_cases hc : (x = i ∧ y = j) ∨ (x = j ∧ y = i)
  · rw [if_pos hc]
    rcases hc with ⟨rfl, rfl⟩ | ⟨rfl, rfl⟩
    · exact h1
    · exact h2
  · rw [if_neg hc, if_neg hc]

/-! ### Loops -/

theorem foldE_map {α β γ : Type} (g : β → α → Except Panic β) (f : γ → α) (b : β) (l : List γ) :
    foldE g b (l.map f) = foldE (fun b c => g b (f c)) b l := by
  induction l generalizing b with
  | nil => rfl
  | cons a l ih =>
    simp only [List.map_cons, foldE]
    cases g b (f a) with
    | error e => rfl
    | ok b' => exact ih b'

theorem foldE_filter {α : Type} {g : List α → α → Except Panic (List α)} {p : α → Bool} {l : List α}
    (h : ∀ a ∈ l, ∀ acc, g acc a = .ok (if p a then acc ++ [a] else acc)) (acc : List α) :
    foldE g acc l = .ok (acc ++ l.filter p) := by
  induction l generalizing acc with
  | nil => simp [foldE]
  | cons a l ih =>
    rw [foldE, h a List.mem_cons_self]
    dsimp only
    rw [ih (fun x hx => h x (List.mem_cons_of_mem _ hx))]
    by_cases hp : p a
    · rw [if_pos hp, List.filter_cons_of_pos hp, List.append_assoc]; rfl
    · rw [if_neg hp, List.filter_cons_of_neg hp]

/-! ### The ring lattice -/

/-- Entries that have been set when the outer loop is at `i` and the inner loop at `j`. -/
def Ring (n k i j x y : ℕ) : Prop :=
  ∃ a b, ((a < i ∧ a < b ∧ b ≤ a + k / 2) ∨ (a = i ∧ i < b ∧ b < j)) ∧
    ((x = a ∧ y = b % n) ∨ (y = a ∧ x = b % n))

theorem mod_cases {n b : ℕ} (h : b < 2 * n) :
    (b < n ∧ b % n = b) ∨ (n ≤ b ∧ b % n = b - n) := by
  rcases Nat.lt_or_ge b n with h1 | h1
  · exact .inl ⟨h1, Nat.mod_eq_of_lt h1⟩
  · refine .inr ⟨h1, ?_⟩
    rw [Nat.mod_eq_sub_mod h1, Nat.mod_eq_of_lt (by omega)]

theorem ring_new {n k i j : ℕ} (hk : k < n) (hi : i < n) (hj : i < j) (hj' : j ≤ i + k / 2) :
    ¬ Ring n k i j i (j % n) ∧ ¬ Ring n k i j (j % n) i ∧ i ≠ j % n := by
  have hj2 : j < 2 * n := by omega
  have key : ∀ a b, ((a < i ∧ a < b ∧ b ≤ a + k / 2) ∨ (a = i ∧ i < b ∧ b < j)) →
      ((i = a ∧ j % n = b % n) ∨ (j % n = a ∧ i = b % n)) → False := by
    intro a b h h'
    have hb2 : b < 2 * n := by omega
    rcases mod_cases hj2 with ⟨h1, h2⟩ | ⟨h1, h2⟩ <;>
      rcases mod_cases hb2 with ⟨h3, h4⟩ | ⟨h3, h4⟩ <;> rw [h2, h4] at h' <;> omega
  refine ⟨?_, ?_, ?_⟩
  · rintro ⟨a, b, h, h'⟩
    exact key a b h h'
  · rintro ⟨a, b, h, h'⟩
    exact key a b h (h'.elim (fun h => .inr ⟨h.1, h.2⟩) (fun h => .inl ⟨h.1, h.2⟩))
  · rcases mod_cases hj2 with ⟨h1, h2⟩ | ⟨h1, h2⟩ <;> omega

theorem ringLattice_spec (n k : ℕ) :
    ∃ m, ringLattice n k = .ok m ∧ Square n m ∧ (k < n → cells n m = 2 * (k / 2) * n) ∧
      ∀ x y, cell m x y = true ↔ Ring n k n n x y := by
  have hrow : ∀ i, (∀ x y, Ring n k i (i + 1) x y ↔ Ring n k i 0 x y) := by
    intro i x y
    constructor
    · rintro ⟨a, b, h | h, h'⟩
      · exact ⟨a, b, .inl h, h'⟩
      · omega
    · rintro ⟨a, b, h | h, h'⟩
      · exact ⟨a, b, .inl h, h'⟩
      · omega
  obtain ⟨m, h1, h2, h3, h4⟩ := foldE_range
    (g := fun m i => foldE (fun m j => setSym m i j true) m (ringTargets n k i))
    (fun i m => Square n m ∧ (k < n → cells n m = 2 * (k / 2) * i) ∧
      ∀ x y, cell m x y = true ↔ Ring n k i 0 x y)
    (lo := 0) (hi := n) (Nat.zero_le _) (b := List.replicate n (List.replicate n false))
    (by
      have hc : ∀ x y, cell (List.replicate n (List.replicate n false)) x y = false := by
        intro x y
        unfold cell
        simp only [List.getD_eq_getElem?_getD, List.getElem?_replicate]
        by_cases hx : x < n
        · by_cases hy : y < n <;> simp [hx, hy]
        · simp [hx]
      refine ⟨⟨by simp, fun r hr => by rw [List.eq_of_mem_replicate hr]; simp⟩, ?_, ?_⟩
      · intro _
        unfold cells
        simp [hc]
      · intro x y
        rw [hc]
        constructor
        · intro h; cases h
        · rintro ⟨a, b, h, -⟩; omega)
    (by
      rintro i m - hi ⟨hb1, hb2, hb3⟩
      obtain ⟨m', g1, g2, g3, g4⟩ := foldE_range
        (g := fun m j => setSym m i (j % n) true)
        (fun j m => Square n m ∧ (k < n → cells n m = 2 * (k / 2) * i + 2 * (j - (i + 1))) ∧
          ∀ x y, cell m x y = true ↔ Ring n k i j x y)
        (lo := i + 1) (hi := i + k / 2 + 1) (by omega) (b := m)
        (by
          refine ⟨hb1, fun hk => by rw [hb2 hk]; omega, fun x y => ?_⟩
          rw [hb3, hrow])
        (by
          rintro j c hj1 hj2 ⟨hc1, hc2, hc3⟩
          have hjn : j % n < n := Nat.mod_lt _ (by omega)
          obtain ⟨c', e1, e2, e3⟩ := setSym_spec hc1 hi hjn true
          have hf : ∀ {x y}, ¬ Ring n k i j x y → cell c x y = false := by
            intro x y h
            rw [← hc3] at h
            simpa using h
          refine ⟨c', e1, e2, ?_, fun x y => ?_⟩
          · intro hk
            obtain ⟨hn1, hn2, hn3⟩ := ring_new hk hi hj1 (Nat.le_of_lt_succ hj2)
            rw [cells_set hi hjn hn3 (hf hn1) (hf hn2) e3, hc2 hk]; omega
          · rw [e3]
            constructor
            · intro h
              by_cases hc : (x = i ∧ y = j % n) ∨ (x = j % n ∧ y = i)
              · exact ⟨i, j, .inr ⟨rfl, hj1, Nat.lt_succ_self _⟩,
                  hc.elim .inl (fun h => .inr ⟨h.2, h.1⟩)⟩
              · rw [if_neg hc] at h
                obtain ⟨a, b, h1, h2⟩ := (hc3 x y).1 h
                exact ⟨a, b, h1.elim .inl (fun h => .inr ⟨h.1, h.2.1, by omega⟩), h2⟩
            · rintro ⟨a, b, h1, h2⟩
              by_cases hc : (x = i ∧ y = j % n) ∨ (x = j % n ∧ y = i)
              · rw [if_pos hc]
              · rw [if_neg hc, hc3]
                refine ⟨a, b, h1.elim .inl (fun h => .inr ⟨h.1, h.2.1, ?_⟩), h2⟩
                rcases Nat.lt_or_ge b j with hlt | hge
                · exact hlt
                · obtain rfl : b = j := by omega
                  obtain rfl : a = i := h.1
                  exact absurd (h2.elim .inl (fun h => .inr ⟨h.2, h.1⟩)) hc)
      refine ⟨m', ?_, g2, ?_, fun x y => ?_⟩
      · rw [ringTargets, foldE_map]; exact g1
      · intro hk
        rw [g3 hk, Nat.mul_add]; omega
      · rw [g4]
        constructor
        · rintro ⟨a, b, h, h'⟩
          exact ⟨a, b, .inl (by omega), h'⟩
        · rintro ⟨a, b, h, h'⟩
          exact ⟨a, b, by omega, h'⟩)
  refine ⟨m, h1, h2, h3, fun x y => ?_⟩
  rw [h4]
  constructor
  · rintro ⟨a, b, h, h'⟩
    exact ⟨a, b, .inl (by omega), h'⟩
  · rintro ⟨a, b, h, h'⟩
    exact ⟨a, b, .inl (by omega), h'⟩

/-! ### Rewiring -/

/-- The invariant of the rewiring. -/
structure RwInv {R : Rand} (n c : ℕ) (st : Rewiring R) : Prop where
  square : Square n st.matrix
  symm : ∀ x y, cell st.matrix x y = cell st.matrix y x
  loop : ∀ x, cell st.matrix x x = false
  count : cells n st.matrix = c
  length : st.targets.length = n
  targets : ∀ x < n, ∀ y, y ∈ row st.targets x ↔ y < n ∧ y ≠ x ∧ cell st.matrix x y = false
  nodup : ∀ x < n, (row st.targets x).Nodup

/-- The link between `i` and `j` was replaced by a new link of `i`, or nothing was changed. -/
def Moved (n i j : ℕ) (m m' : List (List Bool)) : Prop :=
  m' = m ∨ ∃ w, w < n ∧ w ≠ i ∧ w ≠ j ∧ cell m i w = false ∧
    ∀ x y, cell m' x y = if (x = i ∧ y = w) ∨ (x = w ∧ y = i) then true
      else if (x = i ∧ y = j) ∨ (x = j ∧ y = i) then false else cell m x y

theorem RwInv.one {R : Rand} {n c : ℕ} {st : Rewiring R} (h : RwInv n c st) {i j : ℕ} (hi : i < n)
    (hj : j < n) (hij : cell st.matrix i j = true) :
    ∃ st', rewireOne R i st j = .ok st' ∧ RwInv n c st' ∧ Moved n i j st.matrix st'.matrix ∧
      (∀ y, y ≠ j → cell st.matrix i y = true → cell st'.matrix i y = true) ∧
      st'.rng = (R.choose st.rng (row st.targets i)).2 ∧
      ((R.choose st.rng (row st.targets i)).1 = none → st'.matrix = st.matrix) ∧
      ∀ w : ℕ, (R.choose st.rng (row st.targets i)).1 = some w → ∀ x y, cell st'.matrix x y =
        if (x = i ∧ y = w) ∨ (x = w ∧ y = i) then true
        else if (x = i ∧ y = j) ∨ (x = j ∧ y = i) then false else cell st.matrix x y := by
  unfold rewireOne
  have hti : getE st.targets i = .ok (row st.targets i) := by
    rw [getE_eq_ok]
    have : i < st.targets.length := by rw [h.length]; exact hi
    simp [row, this]
  rw [hti]
  dsimp only
  cases hc : R.choose st.rng (row st.targets i) with
  | mk r s1 =>
    cases r with
    | none =>
      exact ⟨_, rfl, ⟨h.square, h.symm, h.loop, h.count, h.length, h.targets, h.nodup⟩, .inl rfl,
        fun y _ hy => hy, rfl, fun _ => rfl, fun w hw => by cases hw⟩
    | some w0 =>
      obtain ⟨w, rfl⟩ : ∃ w : ℕ, w = w0 := ⟨w0, rfl⟩
      have hw := R.choose_some st.rng _ w (by rw [hc])
      obtain ⟨hwn, hwi, hwc⟩ := (h.targets i hi w).1 hw
      have hji : j ≠ i := by
        rintro rfl
        rw [h.loop] at hij; cases hij
      have hwj : w ≠ j := by
        rintro rfl
        rw [hij] at hwc; cases hwc
      obtain ⟨m1, a1, a2, a3⟩ := setSym_spec h.square hi hj false
      obtain ⟨m2, b1, b2, b3⟩ := setSym_spec a2 hi hwn true
      have hlen : ∀ {t : List (List ℕ)} {x : ℕ}, t.length = n → x < n → x < t.length := by
        intro t x h1 h2; omega
      obtain ⟨t1, c1, c2, -, c3⟩ := push_spec (b := j) (hlen h.length hi)
      have c2' := c2.trans h.length
      obtain ⟨t2, d1, d2, -, d3⟩ := push_spec (b := i) (hlen c2' hj)
      have d2' := d2.trans c2'
      have hmod : ∀ {t : List (List ℕ)} {x z : ℕ}, t.length = n → x < n →
          ∃ t', modifyE t x (fun l => l.filter (fun y => y ≠ z)) = .ok t' ∧ t'.length = n ∧
            ∀ y, row t' y = if y = x then (row t y).filter (fun y => y ≠ z) else row t y := by
        intro t x z h1 h2
        refine ⟨_, modifyE_ok (hlen h1 h2), by simpa using h1, fun y => ?_⟩
        by_cases hy : y = x
        · subst hy
          rw [if_pos rfl]
          simp [row, hlen h1 h2]
        · rw [if_neg hy]
          unfold row
          rw [List.getD_eq_getElem?_getD, List.getD_eq_getElem?_getD,
            List.getElem?_set_ne (fun h => hy h.symm)]
      obtain ⟨t3, e1, e2, e3⟩ := hmod (z := w) d2' hi
      obtain ⟨t4, f1, f2, f3⟩ := hmod (z := i) e2 hwn
      dsimp only
      rw [a1]; dsimp only
      rw [b1]; dsimp only
      rw [c1]; dsimp only
      rw [d1]; dsimp only
      rw [e1]; dsimp only
      rw [f1]
      have hcell : ∀ x y, cell m2 x y =
          if (x = i ∧ y = w) ∨ (x = w ∧ y = i) then true
          else if (x = i ∧ y = j) ∨ (x = j ∧ y = i) then false
          else cell st.matrix x y := by
        intro x y; rw [b3, a3]
      refine ⟨_, rfl, ⟨b2, ?_, ?_, ?_, f2, ?_, ?_⟩, .inr ⟨w, hwn, hwi, hwj, hwc, hcell⟩, ?_, rfl,
        fun h => (by cases h), fun w' hw' => (by rw [← Option.some.inj hw']; exact hcell)⟩
      · intro x y
        show cell m2 x y = cell m2 y x
        rw [hcell, hcell, h.symm x y]
        have e1 : ((x = i ∧ y = w) ∨ (x = w ∧ y = i)) = ((y = i ∧ x = w) ∨ (y = w ∧ x = i)) := by
          apply propext; constructor <;> rintro (⟨a, b⟩ | ⟨a, b⟩) <;> simp [a, b]
        have e2 : ((x = i ∧ y = j) ∨ (x = j ∧ y = i)) = ((y = i ∧ x = j) ∨ (y = j ∧ x = i)) := by
          apply propext; constructor <;> rintro (⟨a, b⟩ | ⟨a, b⟩) <;> simp [a, b]
        simp only [e1, e2]
      · intro x
        show cell m2 x x = false
        rw [hcell, if_neg (by omega), h.loop]
        split <;> rfl
      · show cells n m2 = c
        have k1 := cells_unset hi hj (fun h => hji h.symm) hij (by rw [h.symm]; exact hij) a3
        have hz : ∀ x y, (x = i ∧ y = w) ∨ (x = w ∧ y = i) → cell m1 x y = false := by
          intro x y hxy
          rw [a3, if_neg (by omega)]
          rcases hxy with ⟨rfl, rfl⟩ | ⟨rfl, rfl⟩
          · exact hwc
          · rw [h.symm]; exact hwc
        have k2 := cells_set hi hwn (fun h => hwi h.symm) (hz _ _ (.inl ⟨rfl, rfl⟩))
          (hz _ _ (.inr ⟨rfl, rfl⟩)) b3
        have := h.count
        omega
      · intro x hx y
        show y ∈ row t4 x ↔ y < n ∧ y ≠ x ∧ cell m2 x y = false
        have hold := h.targets x hx y
        rw [f3, e3, d3, c3, hcell]
        by_cases hxi : x = i
        · subst hxi
          rw [if_neg (fun h => hwi h.symm), if_pos rfl, if_neg (fun h => hji h.symm), if_pos rfl,
            List.mem_filter, List.mem_append, List.mem_singleton, hold, decide_eq_true_eq]
          by_cases hyw : y = w
          · rw [if_pos (.inl ⟨rfl, hyw⟩)]
            simp [hyw]
          · rw [if_neg (by omega)]
            by_cases hyj : y = j
            · rw [if_pos (.inl ⟨rfl, hyj⟩)]
              simp [hyj, hj, hji, hwj.symm]
            · rw [if_neg (by omega)]
              simp [hyw, hyj]
        · by_cases hxj : x = j
          · subst hxj
            rw [if_neg (fun h => hwj h.symm), if_neg hxi, if_pos rfl, if_neg hxi, List.mem_append,
              List.mem_singleton, hold, if_neg (by omega)]
            by_cases hyi : y = i
            · rw [if_pos (.inr ⟨rfl, hyi⟩)]
              simp [hyi, hi, hji.symm]
            · rw [if_neg (by omega)]
              simp [hyi]
          · by_cases hxw : x = w
            · subst hxw
              rw [if_pos rfl, if_neg hxi, if_neg hxj, if_neg hxi, List.mem_filter, hold,
                decide_eq_true_eq]
              by_cases hyi : y = i
              · rw [if_pos (.inr ⟨rfl, hyi⟩)]
                simp [hyi]
              · rw [if_neg (by omega), if_neg (by omega)]
                simp [hyi]
            · rw [if_neg hxw, if_neg hxi, if_neg hxj, if_neg hxi, hold, if_neg (by omega),
                if_neg (by omega)]
      · intro x hx
        show (row t4 x).Nodup
        have hold := h.nodup x hx
        have hpush : ∀ (l : List ℕ) (z : ℕ), l.Nodup → z ∉ l → (l ++ [z]).Nodup := by
          intro l z h1 h2
          exact h1.append (List.nodup_singleton z) (List.disjoint_singleton.2 h2)
        have hnot : ∀ y, cell st.matrix x y = true → y ∉ row st.targets x := by
          intro y hy hmem
          rw [((h.targets x hx y).1 hmem).2.2] at hy; cases hy
        rw [f3, e3, d3, c3]
        by_cases hxi : x = i
        · subst hxi
          rw [if_neg (fun h => hwi h.symm), if_pos rfl, if_neg (fun h => hji h.symm), if_pos rfl]
          exact (hpush _ _ hold (hnot j hij)).filter _
        · by_cases hxj : x = j
          · subst hxj
            rw [if_neg (fun h => hwj h.symm), if_neg hxi, if_pos rfl, if_neg hxi]
            exact hpush _ _ hold (hnot i (by rw [h.symm]; exact hij))
          · by_cases hxw : x = w
            · subst hxw
              rw [if_pos rfl, if_neg hxi, if_neg hxj, if_neg hxi]
              exact hold.filter _
            · rw [if_neg hxw, if_neg hxi, if_neg hxj, if_neg hxi]
              exact hold
      · intro y hy hcy
        show cell m2 i y = true
        rw [hcell]
        split
        · rfl
        · rw [if_neg (by omega)]; exact hcy

theorem RwInv.fold {R : Rand} {n c i : ℕ} (hi : i < n) {P : List (List Bool) → Prop} {js : List ℕ}
    (hnd : js.Nodup) (hlt : ∀ j ∈ js, j < n) {st : Rewiring R} (h : RwInv n c st)
    (hjs : ∀ j ∈ js, cell st.matrix i j = true)
    (hP : ∀ j ∈ js, ∀ m m', Moved n i j m m' → (∀ x y, cell m x y = cell m y x) → P m → P m')
    (h0 : P st.matrix) :
    ∃ st', foldE (rewireOne R i) st js = .ok st' ∧ RwInv n c st' ∧ P st'.matrix := by
  induction js generalizing st with
  | nil => exact ⟨st, rfl, h, h0⟩
  | cons j js ih =>
    obtain ⟨hn1, hn2⟩ := List.nodup_cons.1 hnd
    obtain ⟨st1, h1, h2, hm, h3, -⟩ := h.one hi (hlt j List.mem_cons_self) (hjs j List.mem_cons_self)
    obtain ⟨st', g1, g2⟩ := ih hn2 (fun x hx => hlt x (List.mem_cons_of_mem _ hx)) h2
      (fun x hx => h3 x (by rintro rfl; exact hn1 hx) (hjs x (List.mem_cons_of_mem _ hx)))
      (fun x hx => hP x (List.mem_cons_of_mem _ hx))
      (hP j List.mem_cons_self _ _ hm h.symm h0)
    refine ⟨st', ?_, g2⟩
    rw [foldE, h1]; exact g1

theorem selectRewired_spec {R : Rand} {n : ℕ} {m : List (List Bool)} (hm : Square n m) {beta : ℚ}
    {i : ℕ} (hi : i < n) {js : List ℕ} (hjs : ∀ j ∈ js, j < n) (s : R.State) :
    ∃ r s', selectRewired R m beta i js s = .ok (r, s') ∧ r.Sublist js ∧
      (∀ j ∈ r, cell m i j = true) ∧ (beta = 0 → r = []) := by
  obtain ⟨⟨r, s'⟩, h1, h2, h3, h4⟩ := foldE_inv
    (g := fun (st : List NodeId × R.State) j =>
      match getM m i j with
      | .error e => .error e
      | .ok false => .ok st
      | .ok true =>
        match R.genBool st.2 beta with
        | (true, s') => .ok (st.1 ++ [j], s')
        | (false, s') => .ok (st.1, s'))
    (fun pre st => st.1.Sublist pre ∧ (∀ j ∈ st.1, cell m i j = true) ∧ (beta = 0 → st.1 = []))
    (l := js) (b := ([], s)) ⟨List.nil_sublist _, by simp, fun _ => rfl⟩ (by
      rintro pre j suf ⟨r, s0⟩ hl ⟨p1, p2, p3⟩
      have hj : j < n := hjs j (by rw [hl]; simp)
      rw [getM_ok hm hi hj]
      cases hcj : cell m i j with
      | false =>
        exact ⟨_, rfl, p1.trans (List.sublist_append_left _ _), p2, p3⟩
      | true =>
        dsimp only
        cases hg : R.genBool s0 beta with
        | mk b s1 =>
          cases b with
          | false => exact ⟨_, rfl, p1.trans (List.sublist_append_left _ _), p2, p3⟩
          | true =>
            refine ⟨_, rfl, p1.append (List.Sublist.refl _), ?_, ?_⟩
            · intro x hx
              rcases List.mem_append.1 hx with hx | hx
              · exact p2 x hx
              · rw [List.mem_singleton.1 hx]; exact hcj
            · rintro rfl
              have := R.genBool_zero s0
              rw [hg] at this; cases this)
  exact ⟨r, s', h1, h2, h3, h4⟩

theorem ringTargets_spec {n k i : ℕ} (hk : k ≤ n) (hi : i < n) :
    (ringTargets n k i).Nodup ∧ ∀ j ∈ ringTargets n k i, j < n := by
  constructor
  · unfold ringTargets
    refine List.Nodup.map_on ?_ (nodup_rangeFT _ _)
    intro (x : ℕ) hx (y : ℕ) hy (hxy : (x % n : ℕ) = y % n)
    rw [mem_rangeFT] at hx hy
    have hx2 : x < 2 * n := by omega
    have hy2 : y < 2 * n := by omega
    rcases mod_cases hx2 with ⟨h1, h2⟩ | ⟨h1, h2⟩ <;>
      rcases mod_cases hy2 with ⟨h3, h4⟩ | ⟨h3, h4⟩ <;> rw [h2, h4] at hxy <;>
      exact (show (x : ℕ) = y by omega)
  · intro j hj
    obtain ⟨x, -, rfl⟩ := List.mem_map.1 hj
    exact Nat.mod_lt _ (by omega)

/-- Before node `i` is considered: nodes from `i` on have all links of the ring lattice to their `h`
successors; nodes before `i` have `h` links that are not among these. -/
structure Kept (n h i : ℕ) (m : List (List Bool)) : Prop where
  later : ∀ a, i ≤ a → a < n → ∀ d, 1 ≤ d → d ≤ h → cell m a ((a + d) % n) = true
  done : ∀ a < i, ∃ W : Finset ℕ, W.card = h ∧ ∀ x ∈ W, cell m a x = true ∧
    (i ≤ x → ∀ d, 1 ≤ d → d ≤ h → (x + d) % n ≠ a)

/-- While links of node `i` are rewired. -/
structure Keeping (n h i : ℕ) (m : List (List Bool)) : Prop where
  later : ∀ a, i < a → a < n → ∀ d, 1 ≤ d → d ≤ h → cell m a ((a + d) % n) = true
  done : ∀ a < i, ∃ W : Finset ℕ, W.card = h ∧ ∀ x ∈ W, cell m a x = true ∧
    (i ≤ x → ∀ d, 1 ≤ d → d ≤ h → (x + d) % n ≠ a)
  current : ∃ W : Finset ℕ, W.card = h ∧ ∀ x ∈ W, cell m i x = true ∧
    (i < x → ∀ d, 1 ≤ d → d ≤ h → (x + d) % n ≠ i)

theorem ring_apart {n h a d d' : ℕ} (hn : 2 * h < n) (ha : a < n) (hd : 1 ≤ d) (hdh : d ≤ h)
    (hdh' : d' ≤ h) : ((a + d) % n + d') % n ≠ a := by
  have h1 : a + d < 2 * n := by omega
  rcases mod_cases h1 with ⟨h2, h3⟩ | ⟨h2, h3⟩ <;> rw [h3]
  · have h4 : a + d + d' < 2 * n := by omega
    rcases mod_cases h4 with ⟨h5, h6⟩ | ⟨h5, h6⟩ <;> omega
  · have h4 : a + d - n + d' < 2 * n := by omega
    rcases mod_cases h4 with ⟨h5, h6⟩ | ⟨h5, h6⟩ <;> omega

theorem Kept.start {n h i : ℕ} {m : List (List Bool)} (hn : 2 * h < n) (hi : i < n)
    (hk : Kept n h i m) : Keeping n h i m where
  later a ha := hk.later a (Nat.le_of_lt ha)
  done := hk.done
  current := by
    refine ⟨(Finset.range h).image (fun d => (i + (d + 1)) % n), ?_, ?_⟩
    · rw [Finset.card_image_of_injOn, Finset.card_range]
      intro d hd d' hd' hdd
      rw [Finset.mem_coe, Finset.mem_range] at hd hd'
      have h1 : i + (d + 1) < 2 * n := by omega
      have h2 : i + (d' + 1) < 2 * n := by omega
      dsimp only at hdd
      rcases mod_cases h1 with ⟨h3, h4⟩ | ⟨h3, h4⟩ <;>
        rcases mod_cases h2 with ⟨h5, h6⟩ | ⟨h5, h6⟩ <;> rw [h4, h6] at hdd <;> omega
    · intro x hx
      obtain ⟨d, hd, rfl⟩ := Finset.mem_image.1 hx
      rw [Finset.mem_range] at hd
      exact ⟨hk.later i (Nat.le_refl i) hi (d + 1) (Nat.succ_pos d) hd,
        fun _ d' _ hd' => ring_apart hn hi (Nat.succ_pos d) hd hd'⟩

theorem Keeping.finish {n h i : ℕ} {m : List (List Bool)} (hk : Keeping n h i m) :
    Kept n h (i + 1) m where
  later a ha := hk.later a ha
  done a ha := by
    rcases Nat.lt_succ_iff_lt_or_eq.1 ha with h1 | rfl
    · obtain ⟨W, h2, h3⟩ := hk.done a h1
      exact ⟨W, h2, fun x hx => ⟨(h3 x hx).1, fun hix => (h3 x hx).2 (by omega)⟩⟩
    · exact hk.current

theorem Keeping.move {n h i d0 : ℕ} {m m' : List (List Bool)} (hn : 2 * h < n) (hi : i < n)
    (hd0 : 1 ≤ d0) (hdh : d0 ≤ h) (hk : Keeping n h i m) (hsym : ∀ x y, cell m x y = cell m y x)
    (hm : Moved n i ((i + d0) % n) m m') :
    Keeping n h i m' := by
  rcases hm with rfl | ⟨w, hwn, hwi, hwj, hwc, hcell⟩
  · exact hk
  obtain ⟨j, hj⟩ : ∃ j, j = (i + d0) % n := ⟨_, rfl⟩
  have hja : ∀ d, d ≤ h → (j + d) % n ≠ i := fun d hd => hj ▸ ring_apart hn hi hd0 hdh hd
  rw [← hj] at hcell hwj
  have hkeep : ∀ x y, cell m x y = true → ¬ ((x = i ∧ y = j) ∨ (x = j ∧ y = i)) →
      cell m' x y = true := by
    intro x y hxy hne
    rw [hcell, if_neg hne]
    split
    · rfl
    · exact hxy
  refine ⟨fun a ha han d hd hdh' => ?_, fun a ha => ?_, ?_⟩
  · refine hkeep _ _ (hk.later a ha han d hd hdh') ?_
    rintro (⟨rfl, -⟩ | ⟨rfl, h2⟩)
    · omega
    · exact hja d hdh' h2
  · obtain ⟨W, h2, h3⟩ := hk.done a ha
    refine ⟨W, h2, fun x hx => ⟨hkeep _ _ (h3 x hx).1 ?_, (h3 x hx).2⟩⟩
    rintro (⟨rfl, -⟩ | ⟨rfl, rfl⟩)
    · omega
    · exact (h3 x hx).2 (Nat.le_refl x) d0 hd0 hdh hj.symm
  · obtain ⟨W, h2, h3⟩ := hk.current
    have hwW : w ∉ W := fun hw => by
      have := (h3 w hw).1
      rw [hwc] at this; cases this
    have hnew : cell m' i w = true := by rw [hcell, if_pos (.inl ⟨rfl, rfl⟩)]
    have hlate : i < w → ∀ d, 1 ≤ d → d ≤ h → (w + d) % n ≠ i := by
      intro hiw d hd hdh' hc
      have := hk.later w hiw hwn d hd hdh'
      rw [hc, hsym, hwc] at this; cases this
    by_cases hjW : j ∈ W
    · refine ⟨insert w (W.erase j), ?_, fun x hx => ?_⟩
      · rw [Finset.card_insert_of_notMem (fun h => hwW (Finset.mem_of_mem_erase h)),
          Finset.card_erase_of_mem hjW, h2]
        have : 0 < W.card := Finset.card_pos.2 ⟨j, hjW⟩
        omega
      · rcases Finset.mem_insert.1 hx with rfl | hx
        · exact ⟨hnew, hlate⟩
        · obtain ⟨hxj, hxW⟩ := Finset.mem_erase.1 hx
          refine ⟨hkeep _ _ (h3 x hxW).1 ?_, (h3 x hxW).2⟩
          rintro (⟨-, rfl⟩ | ⟨h4, rfl⟩)
          · exact hxj rfl
          · exact hxj h4
    · refine ⟨W, h2, fun x hx => ⟨hkeep _ _ (h3 x hx).1 ?_, (h3 x hx).2⟩⟩
      rintro (⟨-, rfl⟩ | ⟨h4, rfl⟩)
      · exact hjW hx
      · exact hjW (h4 ▸ hx)

theorem RwInv.node {R : Rand} {n k c i : ℕ} (hk : k ≤ n) (hi : i < n) (beta : ℚ) {st : Rewiring R}
    (h : RwInv n c st) :
    ∃ st', rewireNode R n k beta st i = .ok st' ∧ RwInv n c st' ∧
      (beta = 0 → st'.matrix = st.matrix) ∧
      (2 * (k / 2) < n → Kept n (k / 2) i st.matrix → Kept n (k / 2) (i + 1) st'.matrix) := by
  obtain ⟨h1, h2⟩ := ringTargets_spec hk hi
  obtain ⟨js, s', g1, g2, g3, g4⟩ := selectRewired_spec (R := R) (beta := beta) h.square hi h2 st.rng
  unfold rewireNode
  rw [g1]
  dsimp only
  obtain ⟨st', e1, e2, e3⟩ := RwInv.fold (R := R) (c := c) hi
    (P := fun m => 2 * (k / 2) < n → Kept n (k / 2) i st.matrix → Keeping n (k / 2) i m)
    (h1.sublist g2)
    (fun j hj => h2 j (g2.subset hj)) (st := { st with rng := s' })
    ⟨h.square, h.symm, h.loop, h.count, h.length, h.targets, h.nodup⟩ g3 (by
      intro j hj m m' hm hsym hP hn hk'
      obtain ⟨b, hb, rfl⟩ := List.mem_map.1 (g2.subset hj)
      rw [mem_rangeFT] at hb
      obtain ⟨d, rfl⟩ := Nat.exists_eq_add_of_le (Nat.le_of_succ_le hb.1)
      exact (hP hn hk').move hn hi (by omega) (by omega) hsym hm)
    (fun hn hk' => hk'.start hn hi)
  refine ⟨st', e1, e2, fun hb => ?_, fun hn hk' => (e3 hn hk').finish⟩
  rw [g4 hb] at e1
  rw [foldE] at e1
  rw [← Except.ok.inj e1]

/-! ### The graph -/

theorem freeTargets_spec {n : ℕ} {m : List (List Bool)} (hm : Square n m)
    (hsym : ∀ x y, cell m x y = cell m y x) :
    ∃ t, freeTargets n m = .ok t ∧ t.length = n ∧
      (∀ x < n, ∀ y, y ∈ row t x ↔ y < n ∧ y ≠ x ∧ cell m x y = false) ∧ ∀ x < n, (row t x).Nodup := by
  have hrow : ∀ i ∈ rangeFT 0 n, foldE (fun (acc : List ℕ) j =>
      if i = j then Except.ok acc
      else
        match getM m i j with
        | .error e => .error e
        | .ok true => .ok acc
        | .ok false =>
          match getM m j i with
          | .error e => .error e
          | .ok true => .ok acc
          | .ok false => .ok (acc ++ [j])) [] (rangeFT 0 n) =
      .ok ((rangeFT 0 n).filter (fun j => decide (j ≠ i) && !cell m i j)) := by
    intro i hi
    rw [mem_rangeFT] at hi
    rw [foldE_filter (p := fun j => decide (j ≠ i) && !cell m i j), List.nil_append]
    intro j hj acc
    rw [mem_rangeFT] at hj
    by_cases hij : i = j
    · subst hij; simp
    · rw [if_neg hij, getM_ok hm hi.2 hj.2, getM_ok hm hj.2 hi.2, hsym j i]
      have : j ≠ i := fun h => hij h.symm
      cases cell m i j <;> simp [this]
  refine ⟨_, mapE_ok hrow, by simp, fun x hx y => ?_, fun x hx => ?_⟩
  · rw [row, List.getD_eq_getElem?_getD, List.getElem?_map, rangeFT, List.getElem?_range' (by omega)]
    simp
  · rw [row, List.getD_eq_getElem?_getD, List.getElem?_map, rangeFT, List.getElem?_range' (by omega)]
    exact (nodup_rangeFT 0 n).filter _

theorem matrixToOutlinks_spec {n : ℕ} {m : List (List Bool)} (hm : Square n m) :
    matrixToOutlinks n m =
      .ok ((rangeFT 0 n).map (fun i => (rangeFT 0 n).filter (fun j => cell m i j))) := by
  apply mapE_ok
  intro i hi
  rw [mem_rangeFT] at hi
  rw [foldE_filter (p := fun j => cell m i j), List.nil_append]
  intro j hj acc
  rw [mem_rangeFT] at hj
  rw [getM_ok hm hi.2 hj.2]
  cases cell m i j <;> simp

theorem smallWorld_link {n : ℕ} {m : List (List Bool)} {i j : ℕ} :
    Link ⟨(rangeFT 0 n).map (fun i => (rangeFT 0 n).filter (fun j => cell m i j))⟩ i j ↔
      i < n ∧ j < n ∧ cell m i j = true := by
  rw [link_row, row, List.getD_eq_getElem?_getD, List.getElem?_map]
  rcases Nat.lt_or_ge i n with hi | hi
  · rw [rangeFT, List.getElem?_range' (by omega)]
    simp
    omega
  · rw [List.getElem?_eq_none (by rw [length_rangeFT]; omega)]
    simp; omega

theorem smallWorld_spec (R : Rand) (s : R.State) {n k : ℕ} (hk : k ≤ n) (he : k % 2 = 0) (beta : ℚ) :
    ∃ m s', newRandomSmallWorld R s n k beta =
        .ok (⟨(rangeFT 0 n).map (fun i => (rangeFT 0 n).filter (fun j => cell m i j))⟩, s') ∧
      (∀ x y, cell m x y = cell m y x) ∧ (∀ x, cell m x x = false) ∧ (k < n → cells n m = k * n) ∧
      (beta = 0 → ∀ x y, cell m x y = true ↔ Ring n k n n x y) ∧
      (k < n → ∀ a < n, ∃ W : Finset ℕ, W.card = k / 2 ∧
        ∀ x ∈ W, x < n ∧ cell m a x = true) := by
  obtain ⟨m0, h1, h2, h3, h4⟩ := ringLattice_spec n k
  have hsym : ∀ x y, cell m0 x y = cell m0 y x := by
    have : ∀ x y, cell m0 x y = true → cell m0 y x = true := by
      intro x y h
      rw [h4] at h ⊢
      obtain ⟨a, b, h, h'⟩ := h
      exact ⟨a, b, h, h'.symm⟩
    intro x y
    rw [Bool.eq_iff_iff]
    exact ⟨this x y, this y x⟩
  have hloop : ∀ x, cell m0 x x = false := by
    intro x
    by_contra hc
    rw [Bool.not_eq_false, h4] at hc
    obtain ⟨a, b, h, h'⟩ := hc
    have hb2 : b < 2 * n := by omega
    rcases mod_cases hb2 with ⟨h5, h6⟩ | ⟨h5, h6⟩ <;> rw [h6] at h' <;> omega
  obtain ⟨t, f1, f2, f3, f4⟩ := freeTargets_spec h2 hsym
  have h0 : RwInv (R := R) n (cells n m0) ⟨m0, t, s⟩ :=
    ⟨h2, hsym, hloop, rfl, f2, f3, f4⟩
  have hkept : Kept n (k / 2) 0 m0 := by
    refine ⟨fun a _ han d hd hdh => ?_, fun a ha => absurd ha (Nat.not_lt_zero a)⟩
    rw [h4]
    exact ⟨a, a + d, .inl ⟨han, by omega, by omega⟩, .inl ⟨rfl, rfl⟩⟩
  obtain ⟨st, g1, g2, g3, g4⟩ := foldE_range (g := rewireNode R n k beta)
    (fun i st => RwInv n (cells n m0) st ∧ (beta = 0 → st.matrix = m0) ∧
      (2 * (k / 2) < n → Kept n (k / 2) i st.matrix)) (lo := 0) (hi := n)
    (Nat.zero_le _) (b := ⟨m0, t, s⟩) ⟨h0, fun _ => rfl, fun _ => hkept⟩ (by
      rintro i b - hi ⟨hb, hb', hb''⟩
      obtain ⟨st', e1, e2, e3, e4⟩ := hb.node hk hi beta
      exact ⟨st', e1, e2, fun h => (e3 h).trans (hb' h), fun h => e4 h (hb'' h)⟩)
  refine ⟨st.matrix, st.rng, ?_, g2.symm, g2.loop,
    fun hk => by rw [g2.count, h3 hk]; congr 1; omega, fun hb x y => by rw [g3 hb, h4],
    fun hkn a ha => by
      obtain ⟨W, w1, w2⟩ := (g4 (by omega)).done a ha
      exact ⟨W, w1, fun x hx => ⟨g2.square.lt (w2 x hx).1, (w2 x hx).1⟩⟩⟩
  unfold newRandomSmallWorld
  rw [if_pos he, h1]
  dsimp only
  rw [if_neg (by omega), f1]
  dsimp only
  rw [g1]
  dsimp only
  rw [matrixToOutlinks_spec g2.square]
  dsimp only
  rw [assertUndirected_ok]
  · intro i j hij
    rw [smallWorld_link] at hij
    simpa using hij.2.1
  · intro i j hij
    rw [smallWorld_link] at hij ⊢
    exact ⟨hij.2.1, hij.1, by rw [g2.symm]; exact hij.2.2⟩

theorem smallWorld_numLinks {n : ℕ} {m : List (List Bool)} :
    numLinks ⟨(rangeFT 0 n).map (fun i => (rangeFT 0 n).filter (fun j => cell m i j))⟩ =
      cells n m := by
  unfold numLinks cells
  rw [Finset.card_filter, Finset.sum_product]
  simp only [← Finset.card_filter]
  have hrow : ∀ x, ((Finset.range n).filter (fun y => cell m x y = true)).card =
      ((List.range n).filter (fun j => cell m x j)).length := by
    intro x
    have : (List.range n).filter (fun j => cell m x j) =
        (List.range n).filter (fun j => decide (cell m x j = true)) := by simp
    rw [this]; rfl
  simp only [hrow]
  rw [rangeFT_zero, List.map_map]
  rfl

end FA
