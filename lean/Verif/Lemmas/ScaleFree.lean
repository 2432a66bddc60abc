import Verif.Lemmas.Mesh

/-!
# Lemmas about scale-free graphs
-/

namespace FA
open Spec Graph

/-- The links of node `x`. -/
def row (o : List (List ℕ)) (x : ℕ) : List ℕ := o.getD x []

theorem row_eq {o : List (List ℕ)} {x : ℕ} {l : List ℕ} (h : o[x]? = some l) : row o x = l := by
  simp [row, h]

theorem link_row {o : List (List ℕ)} {i j : ℕ} : Link ⟨o⟩ i j ↔ j ∈ row o i := link_iff

theorem row_of_ge {o : List (List ℕ)} {x : ℕ} (h : o.length ≤ x) : row o x = [] := by
  simp [row, h]

/-- The number of links in a graph. -/
def total (o : List (List ℕ)) : ℕ := (o.map List.length).sum

theorem total_set {o : List (List ℕ)} {a : ℕ} (h : a < o.length) (l : List ℕ) :
    total (o.set a l) + (row o a).length = total o + l.length := by
  induction o generalizing a with
  | nil => simp at h
  | cons r o ih =>
    cases a with
    | zero => simp [total, row]; omega
    | succ a =>
      have := ih (a := a) (by simpa using h)
      simp only [List.set_cons_succ, total, List.map_cons, List.sum_cons] at this ⊢
      have hr : row (r :: o) (a + 1) = row o a := by simp [row]
      rw [hr]; omega

theorem push_spec {o : List (List ℕ)} {a b : ℕ} (ha : a < o.length) :
    ∃ o', modifyE o a (· ++ [b]) = .ok o' ∧ o'.length = o.length ∧ total o' = total o + 1 ∧
      ∀ x, row o' x = if x = a then row o x ++ [b] else row o x := by
  refine ⟨_, modifyE_ok ha, by simp, ?_, fun x => ?_⟩
  · have h1 := total_set ha (o[a] ++ [b])
    have h2 : row o a = o[a] := row_eq (List.getElem?_eq_getElem ha)
    rw [h2, List.length_append, List.length_singleton] at h1
    omega
  · by_cases hx : x = a
    · subst hx
      rw [if_pos rfl]
      simp [row, ha]
    · rw [if_neg hx]
      unfold row
      rw [List.getD_eq_getElem?_getD, List.getD_eq_getElem?_getD,
        List.getElem?_set_ne (fun h => hx h.symm)]

theorem connect_spec {o : List (List ℕ)} {a b : ℕ} (hab : a ≠ b) (ha : a < o.length)
    (hb : b < o.length) :
    ∃ o', connect o a b = .ok o' ∧ o'.length = o.length ∧ total o' = total o + 2 ∧
      ∀ x, row o' x = if x = a then row o x ++ [b] else if x = b then row o x ++ [a] else row o x := by
  obtain ⟨o1, h1, h2, h3, h4⟩ := push_spec (b := b) ha
  obtain ⟨o2, g1, g2, g3, g4⟩ := push_spec (o := o1) (a := b) (b := a) (by rw [h2]; exact hb)
  refine ⟨o2, ?_, g2.trans h2, by omega, fun x => ?_⟩
  · unfold connect
    rw [if_neg hab, h1]; exact g1
  · rw [g4, h4]
    by_cases hxa : x = a
    · subst hxa
      rw [if_neg hab, if_pos rfl, if_pos rfl]
    · rw [if_neg hxa, if_neg hxa]

theorem connect_error {o : List (List ℕ)} {a b : ℕ} (h : o.length ≤ b) :
    ∃ e, connect o a b = .error e := by
  unfold connect
  by_cases hab : a = b
  · exact ⟨_, if_pos hab⟩
  · rw [if_neg hab]
    cases hm : modifyE o a (· ++ [b]) with
    | error e => exact ⟨e, rfl⟩
    | ok o' =>
      obtain ⟨x, -, rfl⟩ := modifyE_eq_ok.1 hm
      refine ⟨.outOfBounds, ?_⟩
      dsimp only
      unfold modifyE
      rw [List.getElem?_eq_none (by simpa using h)]

theorem connect_length {o o' : List (List ℕ)} {a b : ℕ} (h : connect o a b = .ok o') :
    o'.length = o.length := by
  unfold connect at h
  split at h
  · cases h
  · cases hm : modifyE o a (· ++ [b]) with
    | error e => rw [hm] at h; cases h
    | ok o1 =>
      rw [hm] at h
      obtain ⟨x, -, rfl⟩ := modifyE_eq_ok.1 hm
      obtain ⟨y, -, rfl⟩ := modifyE_eq_ok.1 h
      simp

/-- A loop panics if its body panics for one of the elements. -/
theorem foldE_stops {α β : Type} {g : β → α → Except Panic β} {P : β → Prop} {a : α} {l : List α}
    {b : β} (h0 : P b) (hstep : ∀ b x, P b → ∀ b', g b x = .ok b' → P b')
    (hbad : ∀ b, P b → ∃ e, g b a = .error e) (ha : a ∈ l) : ∃ e, foldE g b l = .error e := by
  induction l generalizing b with
  | nil => cases ha
  | cons x l ih =>
    rw [foldE]
    cases hg : g b x with
    | error e => exact ⟨e, rfl⟩
    | ok b' =>
      rcases List.mem_cons.1 ha with rfl | ha
      · obtain ⟨e, he⟩ := hbad b h0
        rw [he] at hg; cases hg
      · exact ih (hstep b x h0 b' hg) ha

/-- State of the first phase after the pairs up to `(i, j)`. -/
def initRow (m0 i j x : ℕ) : List ℕ :=
  if x < i then rangeFT 0 x ++ rangeFT (x + 1) m0
  else if x = i then rangeFT 0 i ++ rangeFT (i + 1) j
  else if x < j then rangeFT 0 (i + 1)
  else if x < m0 then rangeFT 0 i
  else []

theorem scaleFreeInit_spec {n m0 : ℕ} (h : m0 ≤ n) :
    ∃ o, scaleFreeInit m0 (List.replicate n []) = .ok o ∧ o.length = n ∧
      ∀ x, row o x = if x < m0 then rangeFT 0 x ++ rangeFT (x + 1) m0 else [] := by
  obtain ⟨o, h1, h2, h3⟩ := foldE_range
    (g := fun o i => foldE (fun o j => connect o i j) o (rangeFT (i + 1) m0))
    (fun i o => o.length = n ∧ ∀ x, row o x =
      if x < i then rangeFT 0 x ++ rangeFT (x + 1) m0 else if x < m0 then rangeFT 0 i else [])
    (lo := 0) (hi := m0) (Nat.zero_le _) (b := List.replicate n [])
    (by
      refine ⟨by simp, fun x => ?_⟩
      rw [if_neg (by omega), rangeFT_self]
      have : row (List.replicate n ([] : List ℕ)) x = [] := by
        simp only [row, List.getD_eq_getElem?_getD, List.getElem?_replicate]
        split <;> rfl
      rw [this]; split <;> rfl)
    (by
      rintro i b - hi ⟨hb1, hb2⟩
      obtain ⟨b', g1, g2, g3⟩ := foldE_range (g := fun o j => connect o i j)
        (fun j o => o.length = n ∧ ∀ x, row o x = initRow m0 i j x)
        (lo := i + 1) (hi := m0) hi (b := b)
        (by
          refine ⟨hb1, fun x => ?_⟩
          rw [hb2]
          unfold initRow
          by_cases h1 : x < i
          · rw [if_pos h1, if_pos h1]
          · rw [if_neg h1, if_neg h1]
            by_cases h2 : x = i
            · rw [if_pos h2, rangeFT_self, List.append_nil, if_pos (by omega)]
            · rw [if_neg h2, if_neg (show ¬ x < i + 1 by omega)])
        (by
          rintro j c hj1 hj2 ⟨hc1, hc2⟩
          obtain ⟨c', e1, e2, -, e3⟩ := connect_spec (o := c) (a := i) (b := j) (by omega)
            (by omega) (by omega)
          refine ⟨c', e1, e2.trans hc1, fun x => ?_⟩
          rw [e3, hc2]
          unfold initRow
          by_cases h1 : x < i
          · rw [if_neg (by omega), if_neg (by omega), if_pos h1, if_pos h1]
          · rw [if_neg h1, if_neg h1]
            by_cases h2 : x = i
            · rw [if_pos h2, if_pos h2, if_pos h2, rangeFT_succ hj1, List.append_assoc]
            · rw [if_neg h2, if_neg h2, if_neg h2]
              by_cases h3 : x = j
              · subst h3
                rw [if_pos rfl, if_neg (Nat.lt_irrefl _), if_pos hj2, if_pos (Nat.lt_succ_self _),
                  rangeFT_succ (Nat.zero_le _)]
              · rw [if_neg h3]
                by_cases h4 : x < j
                · rw [if_pos h4, if_pos (by omega)]
                · rw [if_neg h4, if_neg (show ¬ x < j + 1 by omega)])
      refine ⟨b', g1, g2, fun x => ?_⟩
      rw [g3]
      unfold initRow
      by_cases h1 : x < i
      · rw [if_pos h1, if_pos (by omega)]
      · rw [if_neg h1]
        by_cases h2 : x = i
        · subst h2; rw [if_pos rfl, if_pos (Nat.lt_succ_self _)]
        · rw [if_neg h2, if_neg (show ¬ x < i + 1 by omega)]
          by_cases h3 : x < m0
          · rw [if_pos h3, if_pos h3]
          · rw [if_neg h3, if_neg h3, if_neg h3])
  refine ⟨o, h1, h2, fun x => ?_⟩
  rw [h3]
  by_cases h1 : x < m0
  · rw [if_pos h1, if_pos h1]
  · rw [if_neg h1, if_neg h1, if_neg h1]

theorem sum_ite_range (n m0 c : ℕ) (h : m0 ≤ n) :
    ((List.range n).map (fun x => if x < m0 then c else 0)).sum = m0 * c := by
  induction n generalizing m0 with
  | zero => obtain rfl : m0 = 0 := by omega
            simp
  | succ n ih =>
    rw [List.range_succ, List.map_append, List.sum_append]
    rcases Nat.lt_or_ge n m0 with hlt | hge
    · obtain rfl : m0 = n + 1 := by omega
      have : (List.range n).map (fun x => if x < n + 1 then c else 0) =
          (List.range n).map (fun x => if x < n then c else 0) := by
        apply List.map_congr_left
        intro x hx
        rw [List.mem_range] at hx
        rw [if_pos hx, if_pos (by omega)]
      rw [this, ih n (Nat.le_refl _)]
      simp [Nat.add_mul]
    · rw [ih m0 hge]
      simp [Nat.not_lt.2 hge]

theorem map_length_eq {o : List (List ℕ)} :
    o.map List.length = (List.range o.length).map (fun x => (row o x).length) := by
  apply List.ext_getElem
  · simp
  · intro i h1 h2
    simp at h1
    simp [row, h1]

/-- The invariant of the second phase: nodes below `i` are connected. -/
structure SfInv (n m0 m i : ℕ) (o : List (List ℕ)) : Prop where
  length : o.length = n
  above : ∀ x, i ≤ x → row o x = []
  nodup : ∀ x, (row o x).Nodup
  range : ∀ x, ∀ y ∈ row o x, y < i
  loop : ∀ x, x ∉ row o x
  symm : ∀ x y, y ∈ row o x → x ∈ row o y
  nonempty : ∀ x < i, row o x ≠ []
  start : ∀ x < m0, ∀ y < m0, x ≠ y → y ∈ row o x
  later : ∀ x, m0 ≤ x → x < i → ((row o x).filter (fun y => decide (y < x))).length = m
  total : total o = m0 * (m0 - 1) + 2 * m * (i - m0)

theorem SfInv.init {n m0 m : ℕ} (h2 : 2 ≤ m0) (h : m0 ≤ n) :
    ∃ o, scaleFreeInit m0 (List.replicate n []) = .ok o ∧ SfInv n m0 m m0 o := by
  obtain ⟨o, h1, h3, h4⟩ := scaleFreeInit_spec h
  have hm : ∀ x y, y ∈ row o x ↔ x < m0 ∧ y < m0 ∧ y ≠ x := by
    intro x y
    rw [h4]
    split
    · rw [List.mem_append, mem_rangeFT, mem_rangeFT]; omega
    · simp; omega
  refine ⟨o, h1, h3, ?_, ?_, ?_, ?_, ?_, ?_, ?_, ?_, ?_⟩
  · intro x hx; rw [h4, if_neg (by omega)]
  · intro x
    rw [h4]
    split
    · exact nodup_of_sorted othersInRange
    · exact List.nodup_nil
  · intro x y hy; exact ((hm x y).1 hy).2.1
  · intro x hx; exact ((hm x x).1 hx).2.2 rfl
  · intro x y hy
    obtain ⟨a, b, c⟩ := (hm x y).1 hy
    exact (hm y x).2 ⟨b, a, fun h => c h.symm⟩
  · intro x hx he
    have : (if x = 0 then 1 else 0) ∈ row o x := by
      rw [hm]
      split <;> omega
    rw [he] at this; cases this
  · intro x hx y hy hxy
    exact (hm x y).2 ⟨hx, hy, fun h => hxy h.symm⟩
  · intro x hx hx'; omega
  · have : FA.total o = m0 * (m0 - 1) := by
      unfold FA.total
      rw [map_length_eq, h3]
      have : (List.range n).map (fun x => (row o x).length) =
          (List.range n).map (fun x => if x < m0 then m0 - 1 else 0) := by
        apply List.map_congr_left
        intro x _
        rw [h4]
        split
        · rw [List.length_append, length_rangeFT, length_rangeFT]; omega
        · rfl
      rw [this, sum_ite_range n m0 _ h]
    rw [this]; simp

/-- The invariant of the inner loop: some links of node `i` are set. -/
structure SfInner (n m0 m i : ℕ) (o : List (List ℕ)) (targets : List ℕ) : Prop where
  length : o.length = n
  above : ∀ x, i < x → row o x = []
  nodup : ∀ x, (row o x).Nodup
  range : ∀ x, ∀ y ∈ row o x, y ≤ i
  loop : ∀ x, x ∉ row o x
  symm : ∀ x y, y ∈ row o x → x ∈ row o y
  nonempty : ∀ x < i, row o x ≠ []
  start : ∀ x < m0, ∀ y < m0, x ≠ y → y ∈ row o x
  later : ∀ x, m0 ≤ x → x < i → ((row o x).filter (fun y => decide (y < x))).length = m
  total : total o = m0 * (m0 - 1) + 2 * m * (i - m0) + 2 * (row o i).length
  targets_nodup : targets.Nodup
  targets : ∀ x, x ∈ targets ↔ x < i ∧ x ∉ row o i

theorem SfInner.step {R : Rand} {n m0 m i : ℕ} (hi0 : m0 ≤ i) (hi : i < n) {k : ℕ}
    {o : List (List ℕ)} {targets : List ℕ} {s : R.State} (h : SfInner n m0 m i o targets)
    (hk : (row o i).length + k ≤ i) :
    ∃ o' targets' s', scaleFreeLinks R i k (o, targets, s) = .ok (o', s') ∧
      SfInner n m0 m i o' targets' ∧ (row o' i).length = (row o i).length + k := by
  induction k generalizing o targets s with
  | zero => exact ⟨o, targets, s, rfl, h, rfl⟩
  | succ k ih =>
    rw [scaleFreeLinks]
    have hlow : ∀ y ∈ row o i, y < i := fun y hy => by
      have h1 := h.range i y hy
      have h2 : y ≠ i := fun he => h.loop i (he ▸ hy)
      exact Nat.lt_of_le_of_ne h1 h2
    cases hc : R.chooseWeighted s (fun x => (o.getD x []).length) targets with
    | mk r s1 =>
      cases r with
      | none =>
        exfalso
        have hnone := R.chooseWeighted_none s _ targets (by rw [hc])
        have hempty : ∀ x, x ∉ targets := by
          intro x hx
          have h1 := hnone x hx
          have h2 := h.nonempty x ((h.targets x).1 hx).1
          exact h2 (List.length_eq_zero_iff.1 h1)
        have hsub : List.range i ⊆ row o i := by
          intro x hx
          by_contra hn
          exact hempty x ((h.targets x).2 ⟨List.mem_range.1 hx, hn⟩)
        have := (List.subperm_of_subset List.nodup_range hsub).length_le
        rw [List.length_range] at this
        omega
      | some j =>
        obtain ⟨hj, -⟩ := R.chooseWeighted_some s _ targets j (by rw [hc])
        obtain ⟨hji, hjr⟩ := (h.targets j).1 hj
        obtain ⟨o1, e1, e2, e3, e4⟩ := connect_spec (o := o) (a := i) (b := j) (by omega)
          (by rw [h.length]; exact hi) (by rw [h.length]; omega)
        dsimp only
        rw [e1]
        dsimp only
        have hrow_i : row o1 i = row o i ++ [j] := by rw [e4, if_pos rfl]
        have hrow_j : row o1 j = row o j ++ [i] := by rw [e4, if_neg (by omega), if_pos rfl]
        have hrow_x : ∀ x, x ≠ i → x ≠ j → row o1 x = row o x := by
          intro x h1 h2; rw [e4, if_neg h1, if_neg h2]
        have hmem : ∀ x y, y ∈ row o1 x ↔ y ∈ row o x ∨ (x = i ∧ y = j) ∨ (x = j ∧ y = i) := by
          intro x y
          rw [e4]
          split
          · rename_i hx
            subst hx
            rw [List.mem_append, List.mem_singleton]
            constructor
            · rintro (h | h)
              · exact .inl h
              · exact .inr (.inl ⟨rfl, h⟩)
            · rintro (h | ⟨-, h⟩ | ⟨h, -⟩)
              · exact .inl h
              · exact .inr h
              · omega
          · rename_i hx
            split
            · rename_i hx2
              subst hx2
              rw [List.mem_append, List.mem_singleton]
              constructor
              · rintro (h | h)
                · exact .inl h
                · exact .inr (.inr ⟨rfl, h⟩)
              · rintro (h | ⟨h, -⟩ | ⟨-, h⟩)
                · exact .inl h
                · exact absurd h hx
                · exact .inr h
            · rename_i hx2
              constructor
              · exact .inl
              · rintro (h | ⟨h, -⟩ | ⟨h, -⟩)
                · exact h
                · exact absurd h hx
                · exact absurd h hx2
        have hinr : i ∉ row o j := fun hin => hjr (h.symm j i hin)
        have hstep : SfInner n m0 m i o1 (targets.filter (fun x => decide (x ≠ j))) := by
          refine ⟨e2.trans h.length, ?_, ?_, ?_, ?_, ?_, ?_, ?_, ?_, ?_, ?_, ?_⟩
          · intro x hx
            rw [hrow_x x (by omega) (by omega)]; exact h.above x hx
          · intro x
            by_cases hx : x = i
            · rw [hx, hrow_i, List.nodup_append']
              exact ⟨h.nodup i, by simp, fun a ha ha' => hjr (List.mem_singleton.1 ha' ▸ ha)⟩
            · by_cases hx2 : x = j
              · rw [hx2, hrow_j, List.nodup_append']
                exact ⟨h.nodup j, by simp, fun a ha ha' => hinr (List.mem_singleton.1 ha' ▸ ha)⟩
              · rw [hrow_x x hx hx2]; exact h.nodup x
          · intro x y hy
            rcases (hmem x y).1 hy with h1 | h1 | h1
            · exact h.range x y h1
            · omega
            · omega
          · intro x hx
            rcases (hmem x x).1 hx with h1 | h1 | h1
            · exact h.loop x h1
            · omega
            · omega
          · intro x y hy
            rw [hmem]
            rcases (hmem x y).1 hy with h1 | h1 | h1
            · exact .inl (h.symm x y h1)
            · exact .inr (.inr ⟨h1.2, h1.1⟩)
            · exact .inr (.inl ⟨h1.2, h1.1⟩)
          · intro x hx he
            obtain ⟨y, hy⟩ := List.exists_mem_of_ne_nil _ (h.nonempty x hx)
            have := (hmem x y).2 (.inl hy)
            rw [he] at this; cases this
          · intro x hx y hy hxy
            exact (hmem x y).2 (.inl (h.start x hx y hy hxy))
          · intro x hx hx'
            by_cases hx2 : x = j
            · rw [hx2, hrow_j, List.filter_append]
              have : [i].filter (fun y => decide (y < j)) = [] := by
                rw [List.filter_cons_of_neg (by simpa using Nat.le_of_lt hji)]; rfl
              rw [this, List.append_nil, ← hx2]
              exact h.later x hx hx'
            · rw [hrow_x x (by omega) hx2]; exact h.later x hx hx'
          · rw [e3, h.total, hrow_i, List.length_append, List.length_singleton]; omega
          · exact h.targets_nodup.filter _
          · intro x
            rw [List.mem_filter, h.targets, hrow_i, List.mem_append, List.mem_singleton,
              decide_eq_true_eq]
            constructor
            · rintro ⟨⟨h1, h2⟩, h3⟩
              exact ⟨h1, fun h => h.elim h2 h3⟩
            · rintro ⟨h1, h2⟩
              exact ⟨⟨h1, fun h => h2 (.inl h)⟩, fun h => h2 (.inr h)⟩
        have hlen : (row o1 i).length = (row o i).length + 1 := by
          rw [hrow_i, List.length_append, List.length_singleton]
        obtain ⟨o', t', s', g1, g2, g3⟩ := ih (s := s1) hstep (by rw [hlen]; omega)
        exact ⟨o', t', s', g1, g2, by rw [g3, hlen]; omega⟩

theorem SfInv.node {R : Rand} {n m0 m i : ℕ} (hi0 : m0 ≤ i) (hi : i < n) (hm : 1 ≤ m)
    (hmm : m ≤ m0) {o : List (List ℕ)} {s : R.State} (h : SfInv n m0 m i o) :
    ∃ o' s', scaleFreeLinks R i m (o, rangeFT 0 i, s) = .ok (o', s') ∧ SfInv n m0 m (i + 1) o' := by
  have hri : row o i = [] := h.above i (Nat.le_refl _)
  have h0 : SfInner n m0 m i o (rangeFT 0 i) := by
    refine ⟨h.length, fun x hx => h.above x (Nat.le_of_lt hx), h.nodup,
      fun x y hy => Nat.le_of_lt (h.range x y hy), h.loop, h.symm, h.nonempty, h.start, h.later,
      by rw [h.total, hri]; rfl, nodup_rangeFT _ _, fun x => ?_⟩
    rw [mem_rangeFT, hri]; simp
  obtain ⟨o', t', s', g1, g2, g3⟩ := h0.step (R := R) (s := s) hi0 hi (k := m) (by
    rw [hri, List.length_nil]; omega)
  rw [hri, List.length_nil, Nat.zero_add] at g3
  refine ⟨o', s', g1, g2.length, fun x hx => g2.above x hx, g2.nodup,
    fun x y hy => Nat.lt_succ_of_le (g2.range x y hy), g2.loop, g2.symm, ?_, g2.start, ?_, ?_⟩
  · intro x hx
    rcases Nat.lt_or_ge x i with hlt | hge
    · exact g2.nonempty x hlt
    · obtain rfl : x = i := by omega
      intro he
      rw [he, List.length_nil] at g3; omega
  · intro x hx hx'
    rcases Nat.lt_or_ge x i with hlt | hge
    · exact g2.later x hx hlt
    · obtain rfl : x = i := by omega
      have : (row o' x).filter (fun y => decide (y < x)) = row o' x := by
        rw [List.filter_eq_self]
        intro y hy
        have h1 := g2.range x y hy
        have h2 : y ≠ x := fun he => g2.loop x (he ▸ hy)
        simp; omega
      rw [this, g3]
  · rw [g2.total, g3, show i + 1 - m0 = (i - m0) + 1 by omega, Nat.mul_add]; omega

theorem scaleFree_spec (R : Rand) (s : R.State) {n m0 m : ℕ} (h2 : 2 ≤ m0) (h : m0 ≤ n)
    (hm : 1 ≤ m) (hmm : m ≤ m0) :
    ∃ o s', newRandomScaleFree R s n m0 m = .ok (⟨o⟩, s') ∧ SfInv n m0 m n o := by
  obtain ⟨o, h1, h3⟩ := SfInv.init (m := m) h2 h
  obtain ⟨⟨o', s'⟩, g1, g2⟩ := foldE_range
    (g := fun (st : List (List ℕ) × R.State) i =>
      scaleFreeLinks R i m (st.1, rangeFT 0 i, st.2))
    (fun i st => SfInv n m0 m i st.1) h (b := (o, s)) h3 (by
      rintro i ⟨b, s0⟩ hi1 hi2 hb
      obtain ⟨b', s1, e1, e2⟩ := SfInv.node (R := R) (s := s0) hi1 hi2 hm hmm hb
      exact ⟨(b', s1), e1, e2⟩)
  refine ⟨o', s', ?_, g2⟩
  unfold newRandomScaleFree
  rw [if_pos ⟨hm, hmm, hmm.trans h⟩, h1]
  dsimp only
  rw [g1]
  dsimp only
  have hr : LinksInRange ⟨o'⟩ := by
    intro i j hij
    rw [link_row] at hij
    have := g2.range i j hij
    show j < o'.length
    rw [g2.length]; exact this
  have hu : Undirected ⟨o'⟩ := by
    intro i j hij
    rw [link_row] at hij ⊢
    exact g2.symm i j hij
  rw [assertUndirected_ok hr hu]

end FA
