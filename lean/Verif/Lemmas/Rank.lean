import Verif.Lemmas.Graph
import Verif.Lemmas.Mesh
import Mathlib.Tactic.Linarith
import Mathlib.Tactic.FieldSimp
import Mathlib.Algebra.Order.BigOperators.Group.Finset
import Mathlib.Algebra.BigOperators.Ring.Finset
import Mathlib.Algebra.BigOperators.Group.Finset.Piecewise

/-!
# Lemmas about rank scores
-/

namespace FA
open Spec Graph

/-- Adding up numbers from left to right, with rounding. -/
def rsum (rnd : ℚ → ℚ) (a : ℚ) (l : List ℚ) : ℚ := l.foldl (fun a c => rnd (a + c)) a

theorem rsum_append (rnd : ℚ → ℚ) (a : ℚ) (l l' : List ℚ) :
    rsum rnd a (l ++ l') = rsum rnd (rsum rnd a l) l' := List.foldl_append

theorem rsum_id (a : ℚ) (l : List ℚ) : rsum id a l = a + l.sum := by
  induction l generalizing a with
  | nil => simp [rsum]
  | cons c l ih =>
    rw [List.sum_cons, ← add_assoc]
    exact ih (a + c)

theorem rank_inner (rnd : ℚ → ℚ) (c : ℚ) (l : List NodeId) (sc : List ℚ)
    (hl : ∀ j ∈ l, j < sc.length) :
    ∃ sc', foldE (fun sc j => modifyE sc j (fun x => rnd (x + c))) sc l = .ok sc' ∧
      sc'.length = sc.length ∧
      ∀ j < sc.length, sc'.getD j 0 = rsum rnd (sc.getD j 0) (List.replicate (l.count j) c) := by
  induction l generalizing sc with
  | nil => exact ⟨sc, rfl, rfl, fun j _ => by simp [rsum]⟩
  | cons i l ih =>
    have hi : i < sc.length := hl i List.mem_cons_self
    obtain ⟨sc', h1, h2, h3⟩ := ih (sc.set i (rnd (sc[i] + c))) (fun j hj => by
      rw [List.length_set]; exact hl j (List.mem_cons_of_mem _ hj))
    rw [List.length_set] at h2 h3
    refine ⟨sc', ?_, h2, fun j hj => ?_⟩
    · rw [foldE]
      have : modifyE sc i (fun x => rnd (x + c)) = .ok (sc.set i (rnd (sc[i] + c))) := by
        unfold modifyE; rw [List.getElem?_eq_getElem hi]
      rw [this]
      exact h1
    · rw [h3 j hj]
      by_cases hji : i = j
      · subst hji
        rw [List.count_cons_self, List.replicate_succ]
        simp [hi, rsum]
      · rw [List.count_cons_of_ne hji]
        congr 1
        simp [List.getElem?_set_ne hji]

/-- What `j` receives, in order. -/
def shares (rnd : ℚ → ℚ) (last : List ℚ) (j : NodeId) (ps : List (List NodeId × ℕ)) : List ℚ :=
  ps.flatMap (fun p => List.replicate (p.1.count j) (rnd (last.getD p.2 0 / p.1.length)))

theorem rank_outer (rnd : ℚ → ℚ) (last : List ℚ) (ps : List (List NodeId × ℕ)) (sc : List ℚ)
    (hl : ∀ p ∈ ps, ∀ j ∈ p.1, j < sc.length) :
    ∃ sc', foldE (fun sc p =>
        foldE (fun sc j => modifyE sc j (fun x => rnd (x + rnd (last.getD p.2 0 / p.1.length)))) sc
          p.1) sc ps = .ok sc' ∧
      sc'.length = sc.length ∧
      ∀ j < sc.length, sc'.getD j 0 = rsum rnd (sc.getD j 0) (shares rnd last j ps) := by
  induction ps generalizing sc with
  | nil => exact ⟨sc, rfl, rfl, fun j _ => by simp [rsum, shares]⟩
  | cons p ps ih =>
    obtain ⟨s1, h1, h2, h3⟩ := rank_inner rnd (rnd (last.getD p.2 0 / p.1.length)) p.1 sc
      (hl p List.mem_cons_self)
    obtain ⟨s2, g1, g2, g3⟩ := ih s1 (fun p' hp' j hj => by
      rw [h2]; exact hl p' (List.mem_cons_of_mem _ hp') j hj)
    refine ⟨s2, ?_, g2.trans h2, fun j hj => ?_⟩
    · rw [foldE, h1]; exact g1
    · rw [g3 j (by rw [h2]; exact hj), h3 j hj]
      unfold shares
      rw [List.flatMap_cons, rsum_append]

theorem rankRun_spec (rnd : ℚ → ℚ) {g : Graph} (hg : LinksInRange g) (last : List ℚ) :
    ∃ sc, g.rankRun rnd last = .ok sc ∧ sc.length = g.outlinks.length ∧
      ∀ j < g.outlinks.length, sc.getD j 0 = rsum rnd 0 (shares rnd last j g.outlinks.zipIdx) := by
  obtain ⟨sc, h1, h2, h3⟩ := rank_outer rnd last g.outlinks.zipIdx
    (List.replicate g.outlinks.length 0) (fun p hp j hj => by
      rw [List.length_replicate]
      obtain ⟨l, i⟩ := p
      rw [List.mem_zipIdx_iff_getElem?] at hp
      exact hg i j ⟨l, hp, hj⟩)
  rw [List.length_replicate] at h2 h3
  refine ⟨sc, h1, h2, fun j hj => ?_⟩
  rw [h3 j hj]
  congr 1
  simp [hj]

/-- Sums over the nodes with their links. -/
theorem sum_zipIdx (o : List (List NodeId)) (F : List NodeId → ℕ → ℚ) :
    (o.zipIdx.map (fun p => F p.1 p.2)).sum =
      ∑ i ∈ Finset.range o.length, F (o.getD i []) i := by
  have key : ∀ (o : List (List NodeId)) (k : ℕ), ((o.zipIdx k).map (fun p => F p.1 p.2)).sum =
      ∑ i ∈ Finset.range o.length, F (o.getD i []) (k + i) := by
    intro o
    induction o with
    | nil => intro k; simp
    | cons l o ih =>
      intro k
      rw [List.zipIdx_cons, List.map_cons, List.sum_cons, ih, List.length_cons,
        Finset.sum_range_succ', add_comm]
      congr 1
      refine Finset.sum_congr rfl fun i _ => ?_
      rw [List.getD_cons_succ]
      congr 1
      omega
  have := key o 0
  simpa using this

theorem sum_shares (last : List ℚ) (j : NodeId) (g : Graph) :
    (shares id last j g.outlinks.zipIdx).sum = rankStep g (fun i => last.getD i 0) j := by
  unfold shares rankStep
  rw [List.flatMap_def, List.sum_flatten, List.map_map]
  have : ∀ p : List NodeId × ℕ,
      (List.replicate (p.1.count j) (id (last.getD p.2 0 / (p.1.length : ℚ)))).sum =
        (p.1.count j : ℚ) * (last.getD p.2 0 / p.1.length) := by
    intro p; rw [List.sum_replicate, nsmul_eq_mul]; rfl
  refine Eq.trans (congrArg List.sum (List.map_congr_left (fun p _ => this p))) ?_
  exact sum_zipIdx g.outlinks (fun l i => (l.count j : ℚ) * (last.getD i 0 / l.length))

theorem rankRun_exact {g : Graph} (hg : LinksInRange g) (last : List ℚ) :
    ∃ sc, g.rankRun id last = .ok sc ∧ sc.length = g.outlinks.length ∧
      ∀ j < g.outlinks.length, sc.getD j 0 = rankStep g (fun i => last.getD i 0) j := by
  obtain ⟨sc, h1, h2, h3⟩ := rankRun_spec id hg last
  refine ⟨sc, h1, h2, fun j hj => ?_⟩
  rw [h3 j hj, rsum_id, zero_add, sum_shares]

theorem rankStep_congr {g : Graph} {s s' : ℕ → ℚ}
    (h : ∀ i < g.outlinks.length, s i = s' i) (j : NodeId) : rankStep g s j = rankStep g s' j := by
  unfold rankStep
  refine Finset.sum_congr rfl fun i hi => ?_
  rw [h i (Finset.mem_range.1 hi)]

theorem all_zip_iff {a b : List ℚ} {n : ℕ} (ha : a.length = n) (hb : b.length = n)
    (P : ℚ → ℚ → Bool) :
    (a.zip b).all (fun p => P p.1 p.2) = true ↔
      ∀ j < n, P (a.getD j 0) (b.getD j 0) = true := by
  rw [List.all_eq_true]
  constructor
  · intro h j hj
    have ha' : j < a.length := by omega
    have hb' : j < b.length := by omega
    have : (a[j], b[j]) ∈ a.zip b := by
      rw [List.mem_iff_getElem]
      exact ⟨j, by simp; omega, by simp⟩
    have := h _ this
    simpa [ha', hb'] using this
  · rintro h ⟨x, y⟩ hp
    obtain ⟨j, hj, he⟩ := List.mem_iff_getElem.1 hp
    rw [List.length_zip] at hj
    have ha' : j < a.length := by omega
    have hb' : j < b.length := by omega
    rw [List.getElem_zip] at he
    obtain ⟨rfl, rfl⟩ := Prod.mk.inj he
    have := h j (by omega)
    simpa [ha', hb'] using this

theorem rankLoop_exact {g : Graph} (hg : LinksInRange g) (ε : ℚ) (r : ℕ) (last : List ℚ) (m : ℕ)
    (hlen : last.length = g.outlinks.length)
    (hlast : ∀ j < g.outlinks.length, last.getD j 0 = ranks g m j) :
    ∃ sc k, g.rankLoop id ε r last = .ok sc ∧ sc.length = g.outlinks.length ∧
      (∀ j < g.outlinks.length, sc.getD j 0 = ranks g k j) ∧ m ≤ k ∧ k ≤ m + r ∧
      (k = m + r ∨ (m < k ∧ Settled g ε k)) ∧ ∀ i, m < i → i < k → ¬ Settled g ε i := by
  induction r generalizing last m with
  | zero =>
    exact ⟨last, m, rfl, hlen, hlast, le_refl _, le_refl _, .inl rfl, fun i h1 h2 => by omega⟩
  | succ r ih =>
    obtain ⟨sc, h1, h2, h3⟩ := rankRun_exact hg last
    have h4 : ∀ j < g.outlinks.length, sc.getD j 0 = ranks g (m + 1) j := by
      intro j hj
      rw [h3 j hj]
      exact rankStep_congr hlast j
    have hset : (sc.zip last).all (fun p => decide (|id (p.1 - p.2)| < ε)) = true ↔
        Settled g ε (m + 1) := by
      rw [all_zip_iff h2 hlen (fun a b => decide (|id (a - b)| < ε))]
      unfold Settled
      refine forall_congr' fun j => imp_congr_right fun hj => ?_
      rw [decide_eq_true_eq, h4 j hj, hlast j hj]
      rfl
    rw [rankLoop, h1]
    dsimp only
    by_cases hs : Settled g ε (m + 1)
    · rw [if_pos (hset.2 hs)]
      exact ⟨sc, m + 1, rfl, h2, h4, by omega, by omega, .inr ⟨by omega, hs⟩,
        fun i a b => by omega⟩
    · rw [if_neg (fun h => hs (hset.1 h))]
      obtain ⟨sc', k, e1, e2, e3, e4, e5, e6, e7⟩ := ih sc (m + 1) h2 h4
      refine ⟨sc', k, e1, e2, e3, by omega, by omega, ?_, fun i a b => ?_⟩
      · rcases e6 with e6 | ⟨e6, e8⟩
        · exact .inl (by omega)
        · exact .inr ⟨by omega, e8⟩
      · by_cases hi : i = m + 1
        · rw [hi]; exact hs
        · exact e7 i (by omega) b

theorem rankLoop_ok (rnd : ℚ → ℚ) {g : Graph} (hg : LinksInRange g) (ε : ℚ) (r : ℕ)
    (last : List ℚ) (hlen : last.length = g.outlinks.length) :
    ∃ sc, g.rankLoop rnd ε r last = .ok sc ∧ sc.length = g.outlinks.length := by
  induction r generalizing last with
  | zero => exact ⟨last, rfl, hlen⟩
  | succ r ih =>
    obtain ⟨sc, h1, h2, -⟩ := rankRun_spec rnd hg last
    rw [rankLoop, h1]
    dsimp only
    split
    · exact ⟨sc, rfl, h2⟩
    · exact ih sc h2

/-! ### Sums -/

theorem sum_linkCount {g : Graph} (hg : LinksInRange g) {i : ℕ} :
    ∑ j ∈ Finset.range g.outlinks.length, linkCount g i j = outDegree g i := by
  unfold linkCount outDegree
  have h : ∀ j ∈ g.outlinks.getD i [], j ∈ Finset.range g.outlinks.length := by
    intro j hj
    exact Finset.mem_range.2 (hg i j (link_iff.2 hj))
  generalize g.outlinks.getD i [] = l at h
  induction l with
  | nil => simp
  | cons x l ih =>
    rw [List.length_cons, ← ih (fun j hj => h j (List.mem_cons_of_mem _ hj))]
    have hx := h x List.mem_cons_self
    have : ∀ j, (x :: l).count j = l.count j + if j = x then 1 else 0 := by
      intro j
      rw [List.count_cons]
      congr 1
      by_cases hj : j = x
      · simp [hj]
      · have : ¬ x = j := fun h => hj h.symm
        simp [hj, this]
    simp only [this]
    rw [Finset.sum_add_distrib, Finset.sum_ite_eq' _ x, if_pos hx]

theorem sum_rankStep {g : Graph} (hg : LinksInRange g) (s : ℕ → ℚ) :
    ∑ j ∈ Finset.range g.outlinks.length, rankStep g s j =
      ∑ i ∈ Finset.range g.outlinks.length, if outDegree g i = 0 then 0 else s i := by
  unfold rankStep
  rw [Finset.sum_comm]
  refine Finset.sum_congr rfl fun i _ => ?_
  rw [← Finset.sum_mul]
  have := sum_linkCount hg (i := i)
  have h2 : ∑ j ∈ Finset.range g.outlinks.length, (linkCount g i j : ℚ) = outDegree g i := by
    rw [← this]; push_cast; rfl
  rw [h2]
  split
  · rename_i h; rw [h]; simp
  · rename_i h
    have : (outDegree g i : ℚ) ≠ 0 := by exact_mod_cast h
    field_simp

theorem rankStep_nonneg {g : Graph} {s : ℕ → ℚ} (h : ∀ i < g.outlinks.length, 0 ≤ s i) (j : NodeId) :
    0 ≤ rankStep g s j := by
  unfold rankStep
  refine Finset.sum_nonneg fun i hi => ?_
  have := h i (Finset.mem_range.1 hi)
  positivity

theorem ranks_nonneg (g : Graph) (k : ℕ) : ∀ j, 0 ≤ ranks g k j := by
  induction k with
  | zero => intro j; show (0 : ℚ) ≤ 1 / _; positivity
  | succ k ih => intro j; exact rankStep_nonneg (fun i _ => ih i) j

theorem sum_ranks_zero {g : Graph} (hn : g.outlinks.length ≠ 0) :
    ∑ j ∈ Finset.range g.outlinks.length, ranks g 0 j = 1 := by
  show ∑ j ∈ Finset.range g.outlinks.length, (1 : ℚ) / g.outlinks.length = 1
  rw [Finset.sum_const, Finset.card_range, nsmul_eq_mul]
  have : (g.outlinks.length : ℚ) ≠ 0 := by exact_mod_cast hn
  field_simp

theorem sum_ranks_le {g : Graph} (hg : LinksInRange g) (k : ℕ) :
    ∑ j ∈ Finset.range g.outlinks.length, ranks g (k + 1) j ≤
      ∑ j ∈ Finset.range g.outlinks.length, ranks g k j := by
  show ∑ j ∈ Finset.range g.outlinks.length, rankStep g (ranks g k) j ≤ _
  rw [sum_rankStep hg]
  refine Finset.sum_le_sum fun i _ => ?_
  split
  · exact ranks_nonneg g k i
  · exact le_refl _

theorem sum_ranks_eq {g : Graph} (hg : LinksInRange g)
    (hall : ∀ i < g.outlinks.length, outDegree g i ≠ 0) (k : ℕ) :
    ∑ j ∈ Finset.range g.outlinks.length, ranks g (k + 1) j =
      ∑ j ∈ Finset.range g.outlinks.length, ranks g k j := by
  show ∑ j ∈ Finset.range g.outlinks.length, rankStep g (ranks g k) j = _
  rw [sum_rankStep hg]
  refine Finset.sum_congr rfl fun i hi => ?_
  rw [if_neg (hall i (Finset.mem_range.1 hi))]

/-! ### Regular graphs -/

/-- Every node has `d` links, and `d` links lead to every node. -/
def Regular (g : Graph) (d : ℕ) : Prop :=
  (∀ l ∈ g.outlinks, l.length = d) ∧ ∀ j < g.outlinks.length, linksInto g j = d

theorem shares_regular (rnd : ℚ → ℚ) {g : Graph} {d : ℕ} (hr : ∀ l ∈ g.outlinks, l.length = d)
    (v : ℚ) (j : NodeId) :
    shares rnd (List.replicate g.outlinks.length v) j g.outlinks.zipIdx =
      List.replicate (linksInto g j) (rnd (v / d)) := by
  have key : ∀ (o : List (List NodeId)) (k N : ℕ), k + o.length ≤ N → (∀ l ∈ o, l.length = d) →
      shares rnd (List.replicate N v) j (o.zipIdx k) =
        List.replicate (o.map (fun l => l.count j)).sum (rnd (v / d)) := by
    intro o
    induction o with
    | nil => intro k N _ _; rfl
    | cons l o ih =>
      intro k N hk ho
      rw [List.length_cons] at hk
      have := ih (k + 1) N (by omega) (fun l' hl' => ho l' (List.mem_cons_of_mem _ hl'))
      unfold shares at this ⊢
      rw [List.zipIdx_cons, List.flatMap_cons, this, List.map_cons, List.sum_cons,
        List.replicate_add]
      congr 1
      dsimp only
      rw [ho l List.mem_cons_self]
      congr 2
      have hkN : k < N := by omega
      simp [hkN]
  exact key g.outlinks 0 _ (by omega) hr

theorem rankRun_regular (rnd : ℚ → ℚ) {g : Graph} (hg : LinksInRange g) {d : ℕ} (hr : Regular g d)
    (v : ℚ) : g.rankRun rnd (List.replicate g.outlinks.length v) =
      .ok (List.replicate g.outlinks.length (rsum rnd 0 (List.replicate d (rnd (v / d))))) := by
  obtain ⟨sc, h1, h2, h3⟩ := rankRun_spec rnd hg (List.replicate g.outlinks.length v)
  rw [h1]
  congr 1
  apply List.ext_getElem
  · rw [h2, List.length_replicate]
  · intro j hj hj'
    rw [List.getElem_replicate]
    have := h3 j (by omega)
    rw [shares_regular rnd hr.1, hr.2 j (by omega)] at this
    rw [← this]
    simp [hj]

theorem rankLoop_regular (rnd : ℚ → ℚ) {g : Graph} (hg : LinksInRange g) {d : ℕ} (hr : Regular g d)
    (ε : ℚ) (r : ℕ) (v : ℚ) :
    ∃ w, g.rankLoop rnd ε r (List.replicate g.outlinks.length v) =
      .ok (List.replicate g.outlinks.length w) := by
  induction r generalizing v with
  | zero => exact ⟨v, rfl⟩
  | succ r ih =>
    rw [rankLoop, rankRun_regular rnd hg hr]
    dsimp only
    split
    · exact ⟨_, rfl⟩
    · exact ih _

theorem ranks_regular {g : Graph} {d : ℕ} (hr : Regular g d) (hd : d ≠ 0) (k : ℕ) :
    ∀ j < g.outlinks.length, ranks g k j = 1 / g.outlinks.length := by
  induction k with
  | zero => intro j _; rfl
  | succ k ih =>
    intro j hj
    have hd' : (d : ℚ) ≠ 0 := by exact_mod_cast hd
    show rankStep g (ranks g k) j = _
    rw [rankStep_congr (s' := fun i => (List.replicate g.outlinks.length
      ((1 : ℚ) / g.outlinks.length)).getD i 0) (fun i hi => by rw [ih i hi]; simp [hi]),
      ← sum_shares, shares_regular id hr.1, hr.2 j hj, List.sum_replicate, nsmul_eq_mul, id]
    field_simp

theorem length_fullMesh (n : ℕ) : (newFullMesh n).outlinks.length = n := by simp [newFullMesh]

theorem fullMesh_inRange (n : ℕ) : LinksInRange (newFullMesh n) := by
  intro i j h
  rw [length_fullMesh]
  exact (link_newFullMesh.1 h).2.1

/-! ### Links out of range -/

theorem rank_inner_ok {h : ℚ → ℚ} {l : List NodeId} {sc sc' : List ℚ}
    (he : foldE (fun sc j => modifyE sc j h) sc l = .ok sc') :
    sc'.length = sc.length ∧ ∀ j ∈ l, j < sc.length := by
  induction l generalizing sc with
  | nil => cases he; exact ⟨rfl, by simp⟩
  | cons i l ih =>
    rw [foldE] at he
    unfold modifyE at he
    cases hi : sc[i]? with
    | none => rw [hi] at he; cases he
    | some x =>
      rw [hi] at he
      obtain ⟨h1, h2⟩ := ih he
      rw [List.length_set] at h1 h2
      refine ⟨h1, fun j hj => ?_⟩
      rcases List.mem_cons.1 hj with rfl | hj
      · exact (List.getElem?_eq_some_iff.1 hi).1
      · exact h2 j hj

theorem rank_outer_ok {h : List NodeId × ℕ → ℚ → ℚ} {ps : List (List NodeId × ℕ)} {sc sc' : List ℚ}
    (he : foldE (fun sc p => foldE (fun sc j => modifyE sc j (h p)) sc p.1) sc ps = .ok sc') :
    ∀ p ∈ ps, ∀ j ∈ p.1, j < sc.length := by
  induction ps generalizing sc with
  | nil => simp
  | cons p ps ih =>
    rw [foldE] at he
    cases hp : foldE (fun sc j => modifyE sc j (h p)) sc p.1 with
    | error e => rw [hp] at he; cases he
    | ok s1 =>
      rw [hp] at he
      obtain ⟨h1, h2⟩ := rank_inner_ok hp
      intro p' hp' j hj
      rcases List.mem_cons.1 hp' with rfl | hp'
      · exact h2 j hj
      · rw [← h1]; exact ih he p' hp' j hj

theorem rankRun_ok_inRange {rnd : ℚ → ℚ} {g : Graph} {last sc : List ℚ}
    (he : g.rankRun rnd last = .ok sc) : LinksInRange g := by
  rintro i j ⟨l, hl, hj⟩
  have := rank_outer_ok (h := fun p x => rnd (x + rnd (last.getD p.2 0 / p.1.length))) he (l, i)
    (List.mem_zipIdx_iff_getElem?.2 hl) j hj
  simpa using this

theorem getRankScores_eq {rnd : ℚ → ℚ} {g : Graph} :
    ∃ r ε v, g.getRankScores rnd = g.rankLoop rnd ε (r + 1) (List.replicate g.outlinks.length v) :=
  ⟨max (2 * g.outlinks.length) 1000 - 1, _, _, by
    unfold getRankScores
    dsimp only
    rw [Nat.sub_add_cancel (le_trans (by omega) (le_max_right _ _))]⟩

/-! ### Renaming -/

theorem ranks_iso {g g' : Graph} {π : ℕ → ℕ} (hg : LinksInRange g)
    (hlen : g'.outlinks.length = g.outlinks.length)
    (hlt : ∀ i < g.outlinks.length, π i < g.outlinks.length)
    (hinj : ∀ i < g.outlinks.length, ∀ j < g.outlinks.length, π i = π j → i = j)
    (hsurj : ∀ k < g.outlinks.length, ∃ i < g.outlinks.length, π i = k)
    (hmap : ∀ i < g.outlinks.length, g'.outlinks[π i]? = (g.outlinks[i]?).map (·.map π)) (k : ℕ) :
    ∀ j < g.outlinks.length, ranks g' k (π j) = ranks g k j := by
  have hrow : ∀ i < g.outlinks.length, g'.outlinks.getD (π i) [] =
      (g.outlinks.getD i []).map π := by
    intro i hi
    have := hmap i hi
    rw [List.getElem?_eq_getElem hi] at this
    simp [List.getD_eq_getElem?_getD, this, hi]
  have hcount : ∀ i < g.outlinks.length, ∀ j < g.outlinks.length,
      linkCount g' (π i) (π j) = linkCount g i j := by
    intro i hi j hj
    unfold linkCount
    rw [hrow i hi]
    have hr : ∀ x ∈ g.outlinks.getD i [], x < g.outlinks.length :=
      fun x hx => hg i x (link_iff.2 hx)
    generalize g.outlinks.getD i [] = l at hr
    induction l with
    | nil => rfl
    | cons x l ih =>
      rw [List.map_cons, List.count_cons, List.count_cons,
        ih (fun y hy => hr y (List.mem_cons_of_mem _ hy))]
      congr 1
      by_cases hx : x = j
      · simp [hx]
      · have : ¬ π x = π j := fun h => hx (hinj x (hr x List.mem_cons_self) j hj h)
        simp [hx, this]
  induction k with
  | zero => intro j _; show (1 : ℚ) / _ = 1 / _; rw [hlen]
  | succ k ih =>
    intro j hj
    show rankStep g' (ranks g' k) (π j) = rankStep g (ranks g k) j
    unfold rankStep
    rw [hlen]
    symm
    refine Finset.sum_bij (fun i _ => π i) ?_ ?_ ?_ ?_
    · intro i hi; exact Finset.mem_range.2 (hlt i (Finset.mem_range.1 hi))
    · intro a ha b hb h; exact hinj a (Finset.mem_range.1 ha) b (Finset.mem_range.1 hb) h
    · intro b hb
      obtain ⟨i, hi, h⟩ := hsurj b (Finset.mem_range.1 hb)
      exact ⟨i, Finset.mem_range.2 hi, h⟩
    · intro i hi
      have hi' := Finset.mem_range.1 hi
      rw [hcount i hi' j hj, ih i hi']
      unfold outDegree
      rw [hrow i hi', List.length_map]

end FA
