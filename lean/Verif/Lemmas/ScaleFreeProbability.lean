import Mathlib.Algebra.BigOperators.Intervals
import Verif.Lemmas.RandomSets
import Verif.Lemmas.Weights

/-!
# Probabilities of scale-free graphs
-/

namespace FA
open Spec Simulator Props

attribute [local irreducible] Probability

theorem inTurn_congr {w w' : ℕ → ℕ} {l js : List ℕ} (h : ∀ x ∈ l, w x = w' x) (hj : js.Nodup)
    (hs : ∀ j ∈ js, j ∈ l) : InTurn w l js = InTurn w' l js := by
  induction js generalizing l with
  | nil => rfl
  | cons j js ih =>
    obtain ⟨h1, h2⟩ := List.nodup_cons.1 hj
    rw [InTurn, InTurn, h j (hs j List.mem_cons_self), List.map_congr_left h,
      ih (l := l.erase j) (fun x hx => h x (List.mem_of_mem_erase hx)) h2
        (fun x hx => (List.mem_erase_of_ne (fun e => h1 (by rw [← e]; exact hx))).2 (hs x (List.mem_cons_of_mem _ hx)))]

theorem links_succ {R : Rand} {i k : ℕ} {o o' : List (List ℕ)} {targets : List ℕ} {s s' : R.State} :
    Graph.scaleFreeLinks R i (k + 1) (o, targets, s) = .ok (o', s') ↔ ∃ y s1 o1,
      R.chooseWeighted s (fun x => (row o x).length) targets = (some y, s1) ∧ Graph.connect o i y = .ok o1 ∧
      Graph.scaleFreeLinks R i k (o1, targets.filter (fun x => decide (x ≠ y)), s1) = .ok (o', s') := by
  rw [Graph.scaleFreeLinks]
  have hw : (fun x => (o.getD x []).length) = (fun x => (row o x).length) := rfl
  rw [hw]
  cases hc : R.chooseWeighted s (fun x => (row o x).length) targets with
  | mk c s1 =>
    cases c with
    | none =>
      dsimp only
      constructor
      · intro h; cases h
      · rintro ⟨y, s2, o1, h, -⟩; cases h
    | some z =>
      dsimp only
      cases hz : Graph.connect o i z with
      | error e =>
        dsimp only
        constructor
        · intro h; cases h
        · rintro ⟨y, s2, o1, h, h2, -⟩
          obtain ⟨h3, -⟩ := Prod.mk.inj h
          obtain rfl := Option.some.inj h3
          rw [hz] at h2; cases h2
      | ok o2 =>
        dsimp only
        constructor
        · intro h; exact ⟨z, s1, o2, rfl, hz, h⟩
        · rintro ⟨y, s2, o1, h, h2, h4⟩
          obtain ⟨h3, rfl⟩ := Prod.mk.inj h
          obtain rfl := Option.some.inj h3
          rw [hz] at h2
          obtain rfl := Except.ok.inj h2
          exact h4

theorem links_cons {L i k a : ℕ} {o o' : List (List ℕ)} {targets r s' : List ℕ} :
    Graph.scaleFreeLinks (lottery L) i (k + 1) (o, targets, (a :: r : List ℕ)) = .ok (o', s') ↔ ∃ y o1,
      candidateAt (fun x => (row o x).length) (a % (targets.map (fun x => (row o x).length)).sum) targets = some y ∧
      Graph.connect o i y = .ok o1 ∧
      Graph.scaleFreeLinks (lottery L) i k (o1, targets.filter (fun x => decide (x ≠ y)), r) = .ok (o', s') := by
  constructor
  · intro h
    obtain ⟨y, s1, o1, h1, h2, h3⟩ := links_succ.1 h
    obtain ⟨h4, rfl⟩ := Prod.mk.inj (show (candidateAt (fun x => (row o x).length)
      (a % (targets.map (fun x => (row o x).length)).sum) targets, r) = (some y, s1) from h1)
    exact ⟨y, o1, h4, h2, h3⟩
  · rintro ⟨y, o1, h1, h2, h3⟩
    exact links_succ.2 ⟨y, r, o1, congrArg (fun c => (c, r)) h1, h2, h3⟩

theorem follows_true (R : Rand) : Follows R (fun _ _ => True) := fun _ _ _ _ _ _ => trivial

theorem links_probability {L : ℕ} (hL : 0 < L) {i M : ℕ} {o : List (List ℕ)} {targets js : List ℕ}
    (hi : i < o.length) (ht : ∀ x ∈ targets, x < i) (hnd : targets.Nodup) (hj : js.Nodup)
    (hs : ∀ j ∈ js, j ∈ targets) (hpos : ∀ x ∈ targets, 0 < (row o x).length)
    (hd : ∀ d, 0 < d → d ≤ (targets.map (fun x => (row o x).length)).sum → d ∣ L)
    {K : List (List ℕ) → List ℕ → Prop} {p : ℚ}
    (hK : ∀ o', foldE (fun o j => Graph.connect o i j) o js = .ok o' → Probability L M (K o') = p) :
    Probability L (js.length + M) (fun r => ∃ o' s', Graph.scaleFreeLinks (lottery L) i js.length (o, targets, r) =
      .ok (o', s') ∧ row o' i = row o i ++ js ∧ K o' s') =
      InTurn (fun x => (row o x).length) targets js * p := by
  induction js generalizing o targets with
  | nil =>
    rw [InTurn, one_mul, List.length_nil, Nat.zero_add, ← hK o rfl]
    refine probability_congr (fun r _ _ => ?_)
    constructor
    · rintro ⟨o', s', h1, -, h2⟩
      obtain ⟨rfl, rfl⟩ := Prod.mk.inj (Except.ok.inj h1)
      exact h2
    · intro h; exact ⟨o, r, rfl, by simp, h⟩
  | cons j js ih =>
    obtain ⟨hj1, hj2⟩ := List.nodup_cons.1 hj
    have hjm : j ∈ targets := hs j List.mem_cons_self
    have hji : j < i := ht j hjm
    obtain ⟨o1, e1, e2, -, e4⟩ := connect_spec (o := o) (a := i) (b := j) (Nat.ne_of_gt hji) hi (Nat.lt_trans hji hi)
    have herase : targets.filter (fun x => decide (x ≠ j)) = targets.erase j := by
      rw [hnd.erase_eq_filter]
      refine List.filter_congr (fun y _ => ?_)
      rw [Bool.eq_iff_iff]; simp
    have hsame : ∀ x ∈ targets.erase j, (row o1 x).length = (row o x).length := by
      intro x hx
      have h1 := hnd.mem_erase_iff.1 hx
      have h2 := ht x h1.2
      rw [e4, if_neg (by omega), if_neg h1.1]
    have hmap : (targets.erase j).map (fun x => (row o1 x).length) = (targets.erase j).map (fun x => (row o x).length) :=
      List.map_congr_left hsame
    have hjs : ∀ x ∈ js, x ∈ targets.erase j := fun x hx =>
      (List.mem_erase_of_ne (fun e => hj1 (by rw [← e]; exact hx))).2 (hs x (List.mem_cons_of_mem _ hx))
    have hsum : 0 < (targets.map (fun x => (row o x).length)).sum :=
      Nat.lt_of_lt_of_le (hpos j hjm) (le_sum_of_mem (w := fun x => (row o x).length) hjm)
    have ih' := ih (o := o1) (targets := targets.erase j) (by omega)
      (fun x hx => ht x (List.mem_of_mem_erase hx)) (hnd.erase j) hj2 hjs
      (fun x hx => by rw [hsame x hx]; exact hpos x (List.mem_of_mem_erase hx))
      (fun d h1 h2 => hd d h1 (by rw [hmap] at h2; exact h2.trans sum_erase_le))
      (fun o' h => hK o' (by rw [foldE, e1]; exact h))
    rw [inTurn_congr hsame hj2 hjs] at ih'
    rw [InTurn, mul_assoc, ← ih', List.length_cons, Nat.add_right_comm]
    refine probability_choice_one hL hnd rfl hsum (hd _ hsum (Nat.le_refl _)) hjm (fun a r => ?_)
    constructor
    · rintro ⟨o', s', h1, h2, h3⟩
      obtain ⟨y, o2, h4, h5, h6⟩ := links_cons.1 h1
      have hyt := (candidateAt_some h4).1
      have hyi : y < i := ht y hyt
      obtain ⟨o3, g1, g2, -, g4⟩ := connect_spec (o := o) (a := i) (b := y) (Nat.ne_of_gt hyi) hi (Nat.lt_trans hyi hi)
      rw [g1] at h5
      obtain rfl := Except.ok.inj h5
      obtain ⟨js', -, -, k1, -⟩ := scaleFreeLinks_weights (follows_true _) (by omega)
        (fun x hx => ht x (List.mem_filter.1 hx).1) (hnd.filter _) h6
      rw [g4, if_pos rfl, h2, List.append_assoc] at k1
      have hy : j = y := (List.cons.inj (List.append_cancel_left k1)).1
      subst hy
      rw [e1] at g1
      obtain rfl := Except.ok.inj g1
      rw [herase] at h6
      refine ⟨h4, o', s', h6, ?_, h3⟩
      rw [h2, e4, if_pos rfl, List.append_assoc]; rfl
    · rintro ⟨h1, o', s', h2, h3, h4⟩
      refine ⟨o', s', links_cons.2 ⟨j, o1, h1, e1, by rw [herase]; exact h2⟩, ?_, h4⟩
      rw [h3, e4, if_pos rfl, List.append_assoc]; rfl

/-- The links are added one after the other. -/
theorem links_connect {R : Rand} {i k : ℕ} {o o' : List (List ℕ)} {targets js : List ℕ} {s s' : R.State}
    (hi : i < o.length) (ht : ∀ x ∈ targets, x < i) (hnd : targets.Nodup)
    (h : Graph.scaleFreeLinks R i k (o, targets, s) = .ok (o', s')) (hr : row o' i = row o i ++ js) :
    js.length = k ∧ foldE (fun o j => Graph.connect o i j) o js = .ok o' := by
  induction k generalizing o targets s js with
  | zero =>
    rw [Graph.scaleFreeLinks] at h
    obtain ⟨rfl, -⟩ := Prod.mk.inj (Except.ok.inj h)
    have : js = [] := by simpa using hr
    rw [this]
    exact ⟨rfl, rfl⟩
  | succ k ih =>
    obtain ⟨y, s1, o1, h1, h2, h3⟩ := links_succ.1 h
    have hyt := (R.chooseWeighted_some _ _ _ _ (by rw [h1])).1
    have hyi : y < i := ht y hyt
    obtain ⟨o3, g1, g2, -, g4⟩ := connect_spec (o := o) (a := i) (b := y) (Nat.ne_of_gt hyi) hi (Nat.lt_trans hyi hi)
    rw [g1] at h2
    obtain rfl := Except.ok.inj h2
    obtain ⟨js', -, -, k1, -⟩ := scaleFreeLinks_weights (follows_true _) (by omega)
      (fun x hx => ht x (List.mem_filter.1 hx).1) (hnd.filter _) h3
    obtain ⟨h4, h5⟩ := ih (by omega) (fun x hx => ht x (List.mem_filter.1 hx).1) (hnd.filter _) h3 k1
    rw [hr, g4, if_pos rfl, List.append_assoc] at k1
    have : js = y :: js' := List.append_cancel_left k1
    rw [this]
    refine ⟨by rw [List.length_cons, h4], ?_⟩
    rw [foldE, g1]
    exact h5

/-- The loop over the nodes that are added. -/
def sfLoop (R : Rand) (m : ℕ) (st : List (List ℕ) × R.State) (l : List ℕ) :
    Except Panic (List (List ℕ) × R.State) :=
  foldE (fun (st : List (List ℕ) × R.State) i => Graph.scaleFreeLinks R i m (st.1, rangeFT 0 i, st.2)) st l

theorem sfLoop_cons {R : Rand} {m i : ℕ} {l : List ℕ} {o o' : List (List ℕ)} {s s' : R.State} :
    sfLoop R m (o, s) (i :: l) = .ok (o', s') ↔ ∃ o1 s1,
      Graph.scaleFreeLinks R i m (o, rangeFT 0 i, s) = .ok (o1, s1) ∧ sfLoop R m (o1, s1) l = .ok (o', s') := by
  unfold sfLoop
  rw [foldE]
  cases hc : Graph.scaleFreeLinks R i m (o, rangeFT 0 i, s) with
  | error e =>
    dsimp only
    constructor
    · intro h; cases h
    · rintro ⟨o1, s1, h, -⟩; cases h
  | ok pr =>
    obtain ⟨o2, s2⟩ := pr
    dsimp only
    constructor
    · intro h; exact ⟨o2, s2, rfl, h⟩
    · rintro ⟨o1, s1, h, h2⟩
      obtain ⟨rfl, rfl⟩ := Prod.mk.inj (Except.ok.inj h)
      exact h2

theorem rangeFT_cons {a b : ℕ} (h : a < b) : rangeFT a b = a :: rangeFT (a + 1) b := by
  rw [← rangeFT_append (Nat.le_succ a) h, rangeFT_succ (Nat.le_refl a), rangeFT_self]
  rfl

/-- What a node adds. -/
theorem links_row {R : Rand} {n m0 m i : ℕ} {o o' : List (List ℕ)} {s s' : R.State} (hi : i < n)
    (h : SfInv n m0 m i o) (he : Graph.scaleFreeLinks R i m (o, rangeFT 0 i, s) = .ok (o', s')) :
    (∀ y < i, (row o' y).filter (fun z => decide (z < i)) = row o y) ∧
      (row o' i).filter (fun z => decide (z < i)) = row o' i ∧ (row o' i).Nodup ∧ (∀ j ∈ row o' i, j < i) ∧
      foldE (fun o j => Graph.connect o i j) o (row o' i) = .ok o' ∧ (row o' i).length = m := by
  obtain ⟨js, h1, h2, h3, h4, -⟩ := scaleFreeLinks_weights (follows_true _) (by rw [h.length]; exact hi)
    (fun x hx => (mem_rangeFT.1 hx).2) (nodup_rangeFT _ _) he
  obtain ⟨h5, h6⟩ := links_connect (by rw [h.length]; exact hi)
    (fun x hx => (mem_rangeFT.1 hx).2) (nodup_rangeFT _ _) he h3
  have hlow : ∀ y, (row o y).filter (fun z => decide (z < i)) = row o y := fun y =>
    List.filter_eq_self.2 (fun z hz => by simpa using h.range y z hz)
  rw [h.above i (Nat.le_refl _), List.nil_append] at h3
  rw [h3]
  refine ⟨fun y hy => ?_, ?_, h2, fun j hj => (mem_rangeFT.1 (h1 j hj)).2, h6, h5⟩
  · rw [h4 y (Nat.ne_of_lt hy), List.filter_append, hlow]
    split
    · rw [List.filter_cons_of_neg (by simp)]; simp
    · simp
  · rw [List.filter_eq_self]
    intro y hy
    have := (mem_rangeFT.1 (h1 y hy)).2
    simpa using this

theorem filter_lt_lt {l : List ℕ} {i : ℕ} : (l.filter (fun z => decide (z < i + 1))).filter (fun z => decide (z < i)) =
    l.filter (fun z => decide (z < i)) := by
  rw [List.filter_filter]
  refine List.filter_congr (fun z _ => ?_)
  rw [Bool.eq_iff_iff]; simp; omega

theorem sfLoop_rows {R : Rand} {n m0 m : ℕ} (hm : 1 ≤ m) (hmm : m ≤ m0) {d i : ℕ} (hi : m0 ≤ i) (hin : i + d = n)
    {o o' : List (List ℕ)} {s s' : R.State} (h : SfInv n m0 m i o)
    (he : sfLoop R m (o, s) (rangeFT i n) = .ok (o', s')) :
    ∀ y < i, (row o' y).filter (fun z => decide (z < i)) = row o y := by
  induction d generalizing i o s with
  | zero =>
    obtain rfl : i = n := by omega
    rw [rangeFT_self] at he
    obtain ⟨rfl, -⟩ := Prod.mk.inj (Except.ok.inj he)
    exact fun y _ => List.filter_eq_self.2 (fun z hz => by simpa using h.range y z hz)
  | succ d ih =>
    have hin' : i < n := by omega
    rw [rangeFT_cons hin'] at he
    obtain ⟨o1, s1, h1, h2⟩ := sfLoop_cons.1 he
    obtain ⟨o2, s2, h3, h4⟩ := SfInv.node (R := R) (s := s) hi hin' hm hmm h
    rw [h1] at h3
    obtain ⟨rfl, rfl⟩ := Prod.mk.inj (Except.ok.inj h3)
    have h5 := ih (by omega) (by omega) h4 h2
    intro y hy
    rw [← filter_lt_lt, h5 y (by omega)]
    exact (links_row hin' h h1).1 y hy

theorem SfInv.degree_le {n m0 m i : ℕ} {o : List (List ℕ)} (h : SfInv n m0 m i o) (x : ℕ) : (row o x).length ≤ i := by
  rw [← List.toFinset_card_of_nodup (h.nodup x)]
  calc _ ≤ (Finset.range i).card := Finset.card_le_card (fun y hy =>
        Finset.mem_range.2 (h.range x y (List.mem_toFinset.1 hy)))
    _ = i := Finset.card_range i

theorem sum_le_mul {w : ℕ → ℕ} {b : ℕ} (h : ∀ x, w x ≤ b) (l : List ℕ) : (l.map w).sum ≤ l.length * b := by
  induction l with
  | nil => simp
  | cons x l ih =>
    rw [List.map_cons, List.sum_cons, List.length_cons, Nat.succ_mul]
    have := h x
    omega

theorem sfLoop_probability {L : ℕ} (hL : 0 < L) {n m0 m M : ℕ} (hm : 1 ≤ m) (hmm : m ≤ m0)
    (hd : ∀ t, 0 < t → t ≤ n * n → t ∣ L) {d i : ℕ} (hi : m0 ≤ i) (hin : i + d = n)
    {o o' : List (List ℕ)} (h : SfInv n m0 m i o) {R : Rand} {s s' : R.State}
    (he : sfLoop R m (o, s) (rangeFT i n) = .ok (o', s')) :
    Probability L (d * m + M) (fun r => ∃ r', sfLoop (lottery L) m (o, r) (rangeFT i n) = .ok (o', r')) =
      ∏ x ∈ Finset.Ico i n, InTurn (fun y => ((row o' y).filter (fun z => decide (z < x))).length) (List.range x)
        ((row o' x).filter (fun z => decide (z < x))) := by
  induction d generalizing i o s with
  | zero =>
    obtain rfl : i = n := by omega
    rw [rangeFT_self] at he ⊢
    obtain ⟨rfl, -⟩ := Prod.mk.inj (Except.ok.inj he)
    rw [Finset.Ico_self, Finset.prod_empty]
    exact probability_true hL (fun r _ _ => ⟨r, rfl⟩)
  | succ d ih =>
    have hin' : i < n := by omega
    have hrows := sfLoop_rows hm hmm hi hin h he
    rw [rangeFT_cons hin'] at he ⊢
    obtain ⟨o1, s1, h1, h2⟩ := sfLoop_cons.1 he
    obtain ⟨o2, s2, h3, h4⟩ := SfInv.node (R := R) (s := s) hi hin' hm hmm h
    rw [h1] at h3
    obtain ⟨rfl, rfl⟩ := Prod.mk.inj (Except.ok.inj h3)
    obtain ⟨k1, k2, k3, k4, k5, k6⟩ := links_row hin' h h1
    have hjs : (row o' i).filter (fun z => decide (z < i)) = row o1 i := by
      rw [← filter_lt_lt, sfLoop_rows (d := d) hm hmm (Nat.le_succ_of_le hi) (by omega) h4 h2 i (Nat.lt_succ_self i), k2]
    have ih' := ih (Nat.le_succ_of_le hi) (by omega) h4 h2
    rw [Finset.prod_eq_prod_Ico_succ_bot hin', ← ih', hjs]
    have hdeg : InTurn (fun y => ((row o' y).filter (fun z => decide (z < i))).length) (List.range i) (row o1 i) =
        InTurn (fun y => (row o y).length) (rangeFT 0 i) (row o1 i) := by
      rw [rangeFT_zero]
      exact inTurn_congr (fun y hy => by rw [hrows y (List.mem_range.1 hy)]) k3
        (fun j hj => List.mem_range.2 (k4 j hj))
    rw [hdeg]
    have hl := links_probability hL (i := i) (M := d * m + M) (o := o) (targets := rangeFT 0 i) (js := row o1 i)
      (by rw [h.length]; exact hin') (fun x hx => (mem_rangeFT.1 hx).2) (nodup_rangeFT _ _) k3
      (fun j hj => mem_rangeFT.2 ⟨Nat.zero_le _, k4 j hj⟩)
      (fun x hx => List.length_pos_iff.2 (h.nonempty x (mem_rangeFT.1 hx).2))
      (fun t ht1 ht2 => hd t ht1 (ht2.trans (by
        refine (sum_le_mul (b := n) (fun x => (h.degree_le x).trans (Nat.le_of_lt hin')) _).trans ?_
        refine Nat.mul_le_mul_right n ?_
        rw [rangeFT_zero, List.length_range]
        omega)))
      (K := fun o2 r => ∃ r', sfLoop (lottery L) m (o2, r) (rangeFT (i + 1) n) = .ok (o', r'))
      (p := Probability L (d * m + M)
        (fun r => ∃ r', sfLoop (lottery L) m (o1, r) (rangeFT (i + 1) n) = .ok (o', r')))
      (fun o2 ho2 => by
        rw [k5] at ho2
        obtain rfl := Except.ok.inj ho2
        rfl)
    rw [← hl, k6, h.above i (Nat.le_refl _), List.nil_append]
    have hN : (d + 1) * m + M = m + (d * m + M) := by ring
    rw [hN]
    refine probability_congr (fun r _ _ => ?_)
    constructor
    · rintro ⟨r', g1⟩
      obtain ⟨o2, s2, g2, g3⟩ := sfLoop_cons.1 g1
      refine ⟨o2, s2, g2, ?_, r', g3⟩
      obtain ⟨o3, s3, g4, g5⟩ := SfInv.node (R := lottery L) (s := r) hi hin' hm hmm h
      rw [g2] at g4
      obtain ⟨rfl, rfl⟩ := Prod.mk.inj (Except.ok.inj g4)
      rw [← (links_row hin' h g2).2.1,
        ← sfLoop_rows (d := d) hm hmm (Nat.le_succ_of_le hi) (by omega) g5 g3 i (Nat.lt_succ_self i), filter_lt_lt, hjs]
    · rintro ⟨o2, s2, g2, -, r', g3⟩
      exact ⟨r', sfLoop_cons.2 ⟨o2, s2, g2, g3⟩⟩

end FA
