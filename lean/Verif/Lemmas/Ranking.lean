import Verif.Model.Ranking
import Verif.SpecRanking
import Verif.Lemmas.Checked
import Verif.Lemmas.Float
import Mathlib.Algebra.Order.BigOperators.Group.Finset
import Mathlib.Algebra.BigOperators.Field
import Mathlib.Tactic.Linarith
import Mathlib.Algebra.Order.Round
import Mathlib.Tactic.Positivity
import Mathlib.Tactic.NormNum

/-!
# Lemmas about the ranking of nodes
-/

namespace FA.Ranking
open FA Spec

/-! ### Exact scores -/

theorem share_eq {f : Fbas} {S : Finset NodeId} (i j : NodeId) :
    trustShare f S i j =
      if j ∈ (f.qset i).containedNodes.filter (fun y => y ∈ S) then
        1 / ((f.qset i).containedNodes.card : ℚ) else 0 := by
  have hset : {y | Trusts f i y} = ((f.qset i).containedNodes : Set NodeId) := by
    ext y
    rw [Set.mem_ofPred_eq, Finset.mem_coe, trusts_iff, QuorumSet.mem_containedNodes]
  have hmem : (j ∈ S ∧ Trusts f i j) ↔ j ∈ (f.qset i).containedNodes.filter (fun y => y ∈ S) := by
    rw [Finset.mem_filter, trusts_iff, QuorumSet.mem_containedNodes]; exact and_comm
  unfold trustShare
  rw [hset, Set.ncard_coe_finset]
  by_cases h : j ∈ (f.qset i).containedNodes.filter (fun y => y ∈ S)
  · rw [if_pos (hmem.2 h), if_pos h]
  · rw [if_neg (fun h' => h (hmem.1 h')), if_neg h]

theorem share_nonneg (f : Fbas) (S : Finset NodeId) (i j : NodeId) : 0 ≤ trustShare f S i j := by
  rw [share_eq]; split <;> positivity

theorem share_sum_le (f : Fbas) (S : Finset NodeId) (i : NodeId) :
    ∑ j ∈ S, trustShare f S i j ≤ 1 := by
  have h1 : ∑ j ∈ S, trustShare f S i j ≤
      ∑ j ∈ S ∩ (f.qset i).containedNodes.filter (fun y => y ∈ S),
        1 / ((f.qset i).containedNodes.card : ℚ) := by
    rw [Finset.sum_congr rfl (fun j _ => share_eq i j), Finset.sum_ite_mem]
  refine le_trans h1 ?_
  rw [Finset.sum_const, nsmul_eq_mul, mul_one_div]
  refine div_le_one_of_le₀ ?_ (by positivity)
  have : (S ∩ (f.qset i).containedNodes.filter (fun y => y ∈ S)).card ≤
      (f.qset i).containedNodes.card :=
    Finset.card_le_card (fun y hy => (Finset.mem_filter.1 (Finset.mem_inter.1 hy).2).1)
  exact_mod_cast this

theorem share_le_one (f : Fbas) (S : Finset NodeId) (i j : NodeId) : trustShare f S i j ≤ 1 := by
  by_cases hj : j ∈ S
  · exact le_trans (Finset.single_le_sum (f := fun j => trustShare f S i j)
      (fun j _ => share_nonneg f S i j) hj) (share_sum_le f S i)
  · rw [share_eq, if_neg (fun h => hj (Finset.mem_filter.1 h).2)]; norm_num

theorem rank_nonneg (f : Fbas) (S : Finset NodeId) (k : ℕ) (x : NodeId) : 0 ≤ trustRank f S k x := by
  induction k generalizing x with
  | zero => unfold trustRank; positivity
  | succ k ih =>
    exact Finset.sum_nonneg (fun i _ => mul_nonneg (ih i) (share_nonneg f S i x))

/-- Handing on scores does not increase their sum. -/
theorem sum_step_le (f : Fbas) (S : Finset NodeId) {s : NodeId → ℚ} (hs : ∀ i ∈ S, 0 ≤ s i) :
    ∑ j ∈ S, ∑ i ∈ S, s i * trustShare f S i j ≤ ∑ i ∈ S, s i := by
  rw [Finset.sum_comm]
  refine Finset.sum_le_sum (fun i hi => ?_)
  rw [← Finset.mul_sum]
  exact mul_le_of_le_one_right (hs i hi) (share_sum_le f S i)

theorem rank_sum_le (f : Fbas) (S : Finset NodeId) (k : ℕ) : ∑ x ∈ S, trustRank f S k x ≤ 1 := by
  induction k with
  | zero =>
    unfold trustRank
    rw [Finset.sum_const, nsmul_eq_mul, mul_one_div]
    exact div_self_le_one _
  | succ k ih =>
    exact le_trans (sum_step_le f S (fun i _ => rank_nonneg f S k i)) ih

/-! ### Rounding errors -/

/-- The bound for the error of a sum of `m` numbers with exact value `A`. -/
def err (u v : ℚ) (m : ℕ) (A : ℚ) : ℚ :=
  ((1 + u) ^ (m + 1) - 1) * A + 2 * m * (1 + u) ^ (m + 1) * v

theorem pow_ge {u : ℚ} (hu : 0 ≤ u) (m : ℕ) : 1 + u ≤ (1 + u) ^ (m + 1) := by
  rw [pow_succ]
  exact le_mul_of_one_le_left (by linarith) (one_le_pow₀ (by linarith))

theorem err_nonneg {u v A : ℚ} (hu : 0 ≤ u) (hv : 0 ≤ v) (hA : 0 ≤ A) (m : ℕ) :
    0 ≤ err u v m A := by
  have := pow_ge hu m
  exact add_nonneg (mul_nonneg (by linarith) hA) (by positivity)

theorem err_step {u v A a x y z : ℚ} {m : ℕ} (hu : 0 ≤ u) (hv : 0 ≤ v) (ha : 0 ≤ a)
    (hx : |x - A| ≤ err u v m A) (hy : |y - a| ≤ a * u + v)
    (hz : |z - (x + y)| ≤ (x + y) * u + v) : |z - (A + a)| ≤ err u v (m + 1) (A + a) := by
  have hp := pow_ge hu m
  unfold err at hx ⊢
  rw [pow_succ _ (m + 1)]
  set p := (1 + u) ^ (m + 1) with hpd
  have hp0 : 0 ≤ p := by linarith
  have hx' := (abs_le.1 hx).2
  have hy' := (abs_le.1 hy).2
  have ht : |z - (A + a)| ≤ |z - (x + y)| + |x - A| + |y - a| := by
    have e : z - (A + a) = (z - (x + y)) + (x - A) + (y - a) := by ring
    rw [e]
    exact le_trans (abs_add_le _ _) (add_le_add_left (abs_add_le _ _) _)
  have h1 : (x + y) * u ≤ ((A + ((p - 1) * A + 2 * m * p * v)) + (a + (a * u + v))) * u :=
    mul_le_mul_of_nonneg_right (by linarith) hu
  have h2 : a * (1 + u) * (1 + u) ≤ a * (p * (1 + u)) := by
    rw [mul_assoc]
    exact mul_le_mul_of_nonneg_left (mul_le_mul_of_nonneg_right hp (by linarith)) ha
  have h3 : (2 + u) * v ≤ 2 * (p * (1 + u)) * v := by
    refine mul_le_mul_of_nonneg_right ?_ hv
    have : p ≤ p * (1 + u) := le_mul_of_one_le_right hp0 (by linarith)
    linarith
  push_cast
  have e1 : (p * (1 + u) - 1) * (A + a) + 2 * ((m : ℚ) + 1) * (p * (1 + u)) * v =
      (p * (1 + u) - 1) * A + a * (p * (1 + u)) - a + 2 * m * p * v * (1 + u) +
        2 * (p * (1 + u)) * v := by ring
  have e2 : ((A + ((p - 1) * A + 2 * m * p * v)) + (a + (a * u + v))) * u + v +
      ((p - 1) * A + 2 * m * p * v) + (a * u + v) =
      (p * (1 + u) - 1) * A + (a * (1 + u) * (1 + u) - a) + 2 * m * p * v * (1 + u) +
        (2 + u) * v := by ring
  linarith

theorem err_mono {u v A : ℚ} (hu : 0 ≤ u) (hv : 0 ≤ v) (hA : 0 ≤ A) (m : ℕ) :
    err u v m A ≤ err u v (m + 1) A := by
  unfold err
  rw [pow_succ _ (m + 1)]
  have hp := pow_ge hu m
  set p := (1 + u) ^ (m + 1) with hpd
  have hp0 : 0 ≤ p := by linarith
  have h0 : p ≤ p * (1 + u) := le_mul_of_one_le_right hp0 (by linarith)
  have h1 : (p - 1) * A ≤ (p * (1 + u) - 1) * A := mul_le_mul_of_nonneg_right (by linarith) hA
  have h2 : 2 * (m : ℚ) * p * v ≤ 2 * ((m + 1 : ℕ) : ℚ) * (p * (1 + u)) * v := by
    refine mul_le_mul_of_nonneg_right ?_ hv
    refine mul_le_mul ?_ h0 hp0 (by positivity)
    push_cast; linarith
  linarith

theorem err_mono' {u v A : ℚ} (hu : 0 ≤ u) (hv : 0 ≤ v) (hA : 0 ≤ A) {m n : ℕ} (h : m ≤ n) :
    err u v m A ≤ err u v n A := by
  induction n, h using Nat.le_induction with
  | base => exact le_refl _
  | succ n _ ih => exact le_trans ih (err_mono hu hv hA n)

/-- The unit of relative errors. -/
def uu : ℚ := 1 / 2 ^ 53

/-- The unit of absolute errors. -/
def vv : ℚ := 1 / 2 ^ 1075

theorem uu_nonneg : 0 ≤ uu := by unfold uu; positivity

theorem vv_nonneg : 0 ≤ vv := one_div_nonneg.2 (pow_nonneg (by norm_num) _)

theorem near {rnd : ℚ → Option ℚ} (hr : HalfUlp rnd) {x : ℚ} (h0 : 0 ≤ x) (h4 : x ≤ 4) :
    ∃ y, rnd x = some y ∧ 0 ≤ y ∧ |y - x| ≤ x * uu + vv := by
  obtain ⟨y, h1, h2, h3⟩ := hr.near x h0 h4
  refine ⟨y, h1, h2, ?_⟩
  rw [uu, mul_one_div]
  exact h3

theorem pow_le {k : ℕ} (hk : k ≤ 2 ^ 33) : (1 + uu) ^ k ≤ 1 + 2 * k * uu := by
  have hu := uu_nonneg
  induction k with
  | zero => simp
  | succ k ih =>
    have hk' : (k : ℚ) ≤ 2 ^ 33 := by
      have : k ≤ 2 ^ 33 := by omega
      exact_mod_cast this
    have h1 : 2 * (k : ℚ) * uu ≤ 1 := by
      have : 2 * (k : ℚ) * uu ≤ 2 * 2 ^ 33 * uu :=
        mul_le_mul_of_nonneg_right (by linarith) hu
      exact le_trans this (by unfold uu; norm_num)
    have h2 : 2 * (k : ℚ) * uu * uu ≤ 1 * uu := mul_le_mul_of_nonneg_right h1 hu
    have h3 := mul_le_mul_of_nonneg_right (ih (by omega)) (show 0 ≤ 1 + uu by linarith)
    rw [pow_succ]
    refine le_trans h3 ?_
    push_cast
    linarith

theorem err_le {n : ℕ} (hn : n ≤ 2 ^ 32) {A : ℚ} (hA : 0 ≤ A) :
    err uu vv n A ≤ 2 * (n + 1) * uu * A + 4 * n * vv := by
  have hp := pow_le (k := n + 1) (by omega)
  have hn' : (n : ℚ) ≤ 2 ^ 32 := by exact_mod_cast hn
  have hu := uu_nonneg
  have h2 : 2 * ((n : ℚ) + 1) * uu ≤ 1 := by
    have : 2 * ((n : ℚ) + 1) * uu ≤ 2 * (2 ^ 32 + 1) * uu :=
      mul_le_mul_of_nonneg_right (by linarith) hu
    exact le_trans this (by unfold uu; norm_num)
  push_cast at hp
  unfold err
  have h3 : ((1 + uu) ^ (n + 1) - 1) * A ≤ 2 * (n + 1) * uu * A :=
    mul_le_mul_of_nonneg_right (by linarith) hA
  have h4 : 2 * (n : ℚ) * (1 + uu) ^ (n + 1) * vv ≤ 4 * n * vv := by
    refine mul_le_mul_of_nonneg_right ?_ vv_nonneg
    have : 2 * (n : ℚ) * (1 + uu) ^ (n + 1) ≤ 2 * n * 2 :=
      mul_le_mul_of_nonneg_left (by linarith) (by positivity)
    linarith
  linarith

theorem vv_small {n : ℕ} (hn : n ≤ 2 ^ 32) : 4 * (n : ℚ) * n * vv ≤ uu := by
  have hn' : (n : ℚ) ≤ 2 ^ 32 := by exact_mod_cast hn
  have : 4 * (n : ℚ) * n ≤ 4 * 2 ^ 32 * 2 ^ 32 :=
    mul_le_mul (by linarith) hn' (by positivity) (by norm_num)
  refine le_trans (mul_le_mul_of_nonneg_right this vv_nonneg) ?_
  have e : vv = uu * (1 / 2 ^ 1022) := by
    unfold vv uu; rw [div_mul_div_comm, ← pow_add, one_mul]
  rw [e]
  have h1 : (1 : ℚ) / 2 ^ 1022 ≤ 1 / 2 ^ 66 := by
    refine one_div_le_one_div_of_le (by positivity) ?_
    exact pow_le_pow_right₀ (by norm_num) (by norm_num)
  calc 4 * 2 ^ 32 * 2 ^ 32 * (uu * (1 / 2 ^ 1022)) ≤ 4 * 2 ^ 32 * 2 ^ 32 * (uu * (1 / 2 ^ 66)) := by
        refine mul_le_mul_of_nonneg_left ?_ (by norm_num)
        exact mul_le_mul_of_nonneg_left h1 uu_nonneg
    _ ≤ uu := by unfold uu; norm_num

theorem vv_le : vv ≤ uu := by
  show (1 : ℚ) / 2 ^ 1075 ≤ 1 / 2 ^ 53
  refine one_div_le_one_div_of_le (by positivity) ?_
  exact pow_le_pow_right₀ (by norm_num) (by norm_num)

/-! ### A step of the loop -/

/-- The inner loop adds the same number to the scores of some nodes. -/
theorem addScores_spec {rnd : ℚ → Option ℚ} {last scores : List (Option ℚ)} {i : NodeId}
    {l s : Option ℚ} {trusted : List NodeId} (hs : last[i]? = some s) (hn : trusted.Nodup)
    (ht : ∀ j ∈ trusted, j < scores.length) :
    ∃ b, foldE (addScore rnd last i l) scores trusted = .ok b ∧ b.length = scores.length ∧
      ∀ j, b[j]? = if j ∈ trusted then (scores[j]?).map (fun x => add rnd x (div rnd s l))
        else scores[j]? := by
  refine foldE_inv (fun (pre : List NodeId) (b : List (Option ℚ)) => b.length = scores.length ∧
      ∀ j, b[j]? = if j ∈ pre then (scores[j]?).map (fun x => add rnd x (div rnd s l))
        else scores[j]?) (by simp) (fun pre a suf b hl hb => ?_)
  have hlen : a < b.length := by rw [hb.1]; exact ht a (by simp [hl])
  obtain ⟨w, h1, h2, h3⟩ := modifyE_spec (g := fun x => add rnd x (div rnd s l)) hlen
  refine ⟨w, ?_, by rw [h2, hb.1], fun j => ?_⟩
  · rw [addScore, getE_eq_ok.2 hs, Checked.ok_bind, h1]
  · have ha : a ∉ pre := by
      rw [hl] at hn
      intro h
      exact (List.disjoint_of_nodup_append hn) h (by simp)
    rw [h3, hb.2]
    by_cases hj : j = a
    · subst hj; simp [ha]
    · by_cases hj' : j ∈ pre <;> simp [hj, hj']

theorem sum_append_cons {pre suf : List NodeId} {a : NodeId} {g : NodeId → ℚ}
    (hg : ∀ i ∈ pre ++ a :: suf, 0 ≤ g i) :
    0 ≤ (pre.map g).sum ∧ (pre.map g).sum + g a ≤ ((pre ++ a :: suf).map g).sum := by
  have h1 : 0 ≤ (pre.map g).sum := List.sum_nonneg (by
    intro x hx
    obtain ⟨i, hi, rfl⟩ := List.mem_map.1 hx
    exact hg i (by simp [hi]))
  have h2 : 0 ≤ (suf.map g).sum := List.sum_nonneg (by
    intro x hx
    obtain ⟨i, hi, rfl⟩ := List.mem_map.1 hx
    exact hg i (by simp [hi]))
  refine ⟨h1, ?_⟩
  simp only [List.map_append, List.map_cons, List.sum_append, List.sum_cons]
  linarith

variable {f : Fbas} {rnd : ℚ → Option ℚ}

theorem card_le (hwf : WF f) (hN : f.nodes.length ≤ 2 ^ 32) (i : NodeId) :
    (f.qset i).containedNodes.card ≤ 2 ^ 53 := by
  have : (f.qset i).containedNodes ⊆ Finset.range f.nodes.length := by
    intro y hy
    rw [Finset.mem_range]
    exact hwf i y (trusts_iff.2 (QuorumSet.mem_containedNodes.1 hy))
  have := Finset.card_le_card this
  rw [Finset.card_range] at this
  omega

theorem length_le (hN : f.nodes.length ≤ 2 ^ 32) {nodes : List NodeId}
    (hin : ∀ x ∈ nodes, x < f.nodes.length) (hnd : nodes.Nodup) : nodes.length ≤ 2 ^ 32 := by
  have h1 : nodes.toFinset ⊆ Finset.range f.nodes.length := fun x hx =>
    Finset.mem_range.2 (hin x (List.mem_toFinset.1 hx))
  have h2 := Finset.card_le_card h1
  rw [List.toFinset_card_of_nodup hnd, Finset.card_range] at h2
  omega

/-- All operations of a run are finite, and the result is close to the exact one. -/
theorem run_spec (hr : HalfUlp rnd) (hwf : WF f) (hN : f.nodes.length ≤ 2 ^ 32) {nodes : List NodeId}
    (hin : ∀ x ∈ nodes, x < f.nodes.length) (hnd : nodes.Nodup) {last : List (Option ℚ)}
    {s : NodeId → ℚ} (hlast : ∀ i ∈ nodes, last[i]? = some (some (s i)))
    (hs0 : ∀ i ∈ nodes, 0 ≤ s i) (hs2 : (nodes.map s).sum ≤ 2) :
    ∃ b, foldE (rankNode rnd f (ofList nodes) last) (List.replicate f.nodes.length (some 0)) nodes =
        .ok b ∧ b.length = f.nodes.length ∧
      ∀ j < f.nodes.length, ∃ x, b[j]? = some (some x) ∧ 0 ≤ x ∧ (j ∉ nodes → x = 0) ∧
        |x - (nodes.map (fun i => s i * trustShare f (ofList nodes) i j)).sum| ≤
          err uu vv nodes.length
            (nodes.map (fun i => s i * trustShare f (ofList nodes) i j)).sum := by
  have hu := uu_nonneg
  have hv := vv_nonneg
  have hn32 := length_le hN hin hnd
  refine foldE_inv (fun (pre : List NodeId) (b : List (Option ℚ)) => b.length = f.nodes.length ∧
      ∀ j < f.nodes.length, ∃ x, b[j]? = some (some x) ∧ 0 ≤ x ∧ (j ∉ nodes → x = 0) ∧
        |x - (pre.map (fun i => s i * trustShare f (ofList nodes) i j)).sum| ≤
          err uu vv pre.length
            (pre.map (fun i => s i * trustShare f (ofList nodes) i j)).sum) ?_ ?_
  · refine ⟨by simp, fun j hj => ⟨0, by simp [hj], le_refl _, fun _ => rfl, ?_⟩⟩
    simp [err]
  · intro pre i suf b hl hb
    have hi : i ∈ nodes := by simp [hl]
    have hiN := hin i hi
    have hq : f.nodes[i].quorumSet = f.qset i := by
      rw [Fbas.qset, List.getElem?_eq_getElem hiN]
    set trusted := (elems (f.qset i).containedNodes).filter (fun id => decide (id ∈ ofList nodes))
      with htr
    have htm : ∀ j, j ∈ trusted ↔ j ∈ (f.qset i).containedNodes.filter (fun y => y ∈ ofList nodes) := by
      intro j; rw [htr, List.mem_filter, mem_elems, Finset.mem_filter]; simp
    have htl : ∀ j ∈ trusted, j < b.length := by
      intro j hj
      rw [hb.1]
      exact hin j (by simpa [ofList] using (Finset.mem_filter.1 ((htm j).1 hj)).2)
    obtain ⟨b', h1, h2, h3⟩ := addScores_spec (rnd := rnd) (l := rnd (f.qset i).containedNodes.card)
      (hlast i hi) ((elems_nodup _).filter _) htl
    refine ⟨b', ?_, by rw [h2, hb.1], fun j hj => ?_⟩
    · rw [rankNode, getE_ok hiN, Checked.ok_bind, hq]
      exact h1
    · obtain ⟨x, hx, hx0, hxz, hxe⟩ := hb.2 j hj
      set g := fun i => s i * trustShare f (ofList nodes) i j with hg
      have hg0 : ∀ k ∈ pre ++ i :: suf, 0 ≤ g k := fun k hk =>
        mul_nonneg (hs0 k (by rw [hl]; exact hk)) (share_nonneg _ _ _ _)
      obtain ⟨hA, hAa⟩ := sum_append_cons hg0
      set A := (pre.map g).sum with hAd
      have hsum : ((pre ++ [i]).map g).sum = A + g i := by simp [hAd]
      have hga : 0 ≤ g i := hg0 i (by simp)
      have hA2 : A + g i ≤ 2 := by
        refine le_trans hAa (le_trans ?_ hs2)
        rw [← hl]
        refine List.sum_le_sum (fun k hk => ?_)
        exact mul_le_of_le_one_right (hs0 k hk) (share_le_one _ _ _ _)
      rw [hsum, List.length_append, List.length_singleton]
      by_cases hjt : j ∈ trusted
      · have hc := card_le hwf hN i
        have hcpos : 0 < (f.qset i).containedNodes.card :=
          Finset.card_pos.2 ⟨j, (Finset.mem_filter.1 ((htm j).1 hjt)).1⟩
        have hgi : g i = s i / (f.qset i).containedNodes.card := by
          rw [hg]; show s i * trustShare f (ofList nodes) i j = _
          rw [share_eq, if_pos ((htm j).1 hjt), mul_one_div]
        obtain ⟨y, hy, hy0, hye⟩ := near hr hga (by linarith)
        have hpre : pre.length ≤ 2 ^ 32 := by
          have : pre.length ≤ nodes.length := by rw [hl]; simp
          omega
        have hxy : x + y ≤ 4 := by
          have e1 := (abs_le.1 hxe).2
          have e2 := (abs_le.1 hye).2
          have e3 := err_le hpre hA
          have hn' : (pre.length : ℚ) ≤ 2 ^ 32 := by exact_mod_cast hpre
          have e4 : 2 * ((pre.length : ℚ) + 1) * uu ≤ 1 / 4 := by
            have : 2 * ((pre.length : ℚ) + 1) * uu ≤ 2 * (2 ^ 32 + 1) * uu :=
              mul_le_mul_of_nonneg_right (by linarith) hu
            exact le_trans this (by unfold uu; norm_num)
          have e5 : 2 * ((pre.length : ℚ) + 1) * uu * A ≤ 1 / 4 * A :=
            mul_le_mul_of_nonneg_right e4 hA
          have e6 : 4 * (pre.length : ℚ) * vv ≤ 1 / 4 := by
            rcases Nat.eq_zero_or_pos pre.length with h0 | h0
            · rw [h0]; norm_num
            · have h0' : (1 : ℚ) ≤ pre.length := by exact_mod_cast h0
              have e7 : 4 * (pre.length : ℚ) * 1 * vv ≤ 4 * pre.length * pre.length * vv :=
                mul_le_mul_of_nonneg_right (mul_le_mul_of_nonneg_left h0' (by positivity)) hv
              have := vv_small hpre
              have e8 : uu ≤ 1 / 4 := by unfold uu; norm_num
              linarith
          have e9 : g i * uu ≤ g i * (1 / 4) :=
            mul_le_mul_of_nonneg_left (by unfold uu; norm_num) hga
          have e10 : vv ≤ 1 / 4 := le_trans vv_le (by unfold uu; norm_num)
          linarith
        obtain ⟨z, hz, hz0, hze⟩ := near hr (by linarith : 0 ≤ x + y) hxy
        refine ⟨z, ?_, hz0, fun hjn => absurd ((Finset.mem_filter.1 ((htm j).1 hjt)).2) (by simpa [ofList] using hjn), ?_⟩
        · rw [h3, if_pos hjt, hx, hr.int _ hc]
          have hne : ((f.qset i).containedNodes.card : ℚ) ≠ 0 := by exact_mod_cast hcpos.ne'
          simp only [Option.map_some, div, if_neg hne]
          rw [← hgi, hy]
          simp only [add]
          rw [hz]
        · exact err_step hu hv hga hxe hye hze
      · have hgi : g i = 0 := by
          rw [hg]; show s i * trustShare f (ofList nodes) i j = _
          rw [share_eq, if_neg (fun h => hjt ((htm j).2 h)), mul_zero]
        refine ⟨x, by rw [h3, if_neg hjt, hx], hx0, hxz, ?_⟩
        rw [hgi, add_zero]
        exact le_trans hxe (err_mono hu hv hA _)

/-- The error that is added by a run. -/
def eps (n : ℕ) : ℚ := 5 * (n + 1) * uu

theorem eps_nonneg (n : ℕ) : 0 ≤ eps n := by
  have := uu_nonneg
  unfold eps; positivity

theorem eps_small {n k : ℕ} (hn : n ≤ 2 ^ 32) (hk : k ≤ 100) : ((k : ℚ) + 1) * eps n ≤ 1 := by
  have hn' : (n : ℚ) ≤ 2 ^ 32 := by exact_mod_cast hn
  have hk' : (k : ℚ) ≤ 100 := by exact_mod_cast hk
  have h1 : eps n ≤ 5 * (2 ^ 32 + 1) * uu :=
    mul_le_mul_of_nonneg_right (by linarith) uu_nonneg
  have h2 : ((k : ℚ) + 1) * eps n ≤ 101 * (5 * (2 ^ 32 + 1) * uu) :=
    mul_le_mul (by linarith) h1 (eps_nonneg n) (by norm_num)
  refine le_trans h2 ?_
  unfold uu; norm_num

theorem listSum_eq {nodes : List NodeId} (hnd : nodes.Nodup) (g : NodeId → ℚ) :
    (nodes.map g).sum = ∑ i ∈ ofList nodes, g i := (List.sum_toFinset g hnd).symm

/-- What holds after `k` runs. -/
structure After (f : Fbas) (nodes : List NodeId) (k : ℕ) (scores : List (Option ℚ))
    (s : NodeId → ℚ) : Prop where
  length : scores.length = f.nodes.length
  get : ∀ j < f.nodes.length, scores[j]? = some (some (s j))
  nonneg : ∀ j < f.nodes.length, 0 ≤ s j
  zero : 0 < k → ∀ j < f.nodes.length, j ∉ nodes → s j = 0
  total : ∑ j ∈ ofList nodes, |s j - trustRank f (ofList nodes) k j| ≤ (k + 1) * eps nodes.length

theorem After.step (hr : HalfUlp rnd) (hwf : WF f) (hN : f.nodes.length ≤ 2 ^ 32)
    {nodes : List NodeId} (hin : ∀ x ∈ nodes, x < f.nodes.length) (hnd : nodes.Nodup) {k : ℕ}
    (hk : k ≤ 100) {last : List (Option ℚ)} {s : NodeId → ℚ} (h : After f nodes k last s) :
    ∃ b s', foldE (rankNode rnd f (ofList nodes) last)
      (List.replicate f.nodes.length (some 0)) nodes = .ok b ∧ After f nodes (k + 1) b s' := by
  have hn32 := length_le hN hin hnd
  set S := ofList nodes with hS
  have hmem : ∀ x, x ∈ S ↔ x ∈ nodes := fun x => by simp [hS, ofList]
  have hSN : ∀ x ∈ S, x < f.nodes.length := fun x hx => hin x ((hmem x).1 hx)
  have hcard : S.card = nodes.length := List.toFinset_card_of_nodup hnd
  have hs0 : ∀ i ∈ S, 0 ≤ s i := fun i hi => h.nonneg i (hSN i hi)
  have htot : ∑ i ∈ S, s i ≤ 2 := by
    have h1 : ∑ i ∈ S, s i ≤ ∑ i ∈ S, (trustRank f S k i + |s i - trustRank f S k i|) :=
      Finset.sum_le_sum (fun i _ => by have := le_abs_self (s i - trustRank f S k i); linarith)
    rw [Finset.sum_add_distrib] at h1
    have h2 := rank_sum_le f S k
    have h3 := h.total
    have h4 := eps_small hn32 hk
    linarith
  obtain ⟨b, h1, h2, h3⟩ := run_spec hr hwf hN hin hnd (last := last) (s := s)
    (fun i hi => h.get i (hin i hi)) (fun i hi => h.nonneg i (hin i hi))
    (by rw [listSum_eq hnd]; exact htot)
  choose! s' hs' using h3
  refine ⟨b, s', h1, h2, fun j hj => (hs' j hj).1, fun j hj => (hs' j hj).2.1,
    fun _ j hj => (hs' j hj).2.2.1, ?_⟩
  -- the error
  set A : NodeId → ℚ := fun j => ∑ i ∈ S, s i * trustShare f S i j with hA
  have hA0 : ∀ j, 0 ≤ A j := fun j =>
    Finset.sum_nonneg (fun i hi => mul_nonneg (hs0 i hi) (share_nonneg f S i j))
  have hAs : ∑ j ∈ S, A j ≤ 2 := le_trans (sum_step_le f S hs0) htot
  have e1 : ∀ j ∈ S, |s' j - A j| ≤ 2 * (nodes.length + 1) * uu * A j + 4 * nodes.length * vv := by
    intro j hj
    have := (hs' j (hSN j hj)).2.2.2
    rw [listSum_eq hnd] at this
    exact le_trans this (err_le hn32 (hA0 j))
  have e2 : ∑ j ∈ S, |s' j - A j| ≤ eps nodes.length := by
    refine le_trans (Finset.sum_le_sum e1) ?_
    rw [Finset.sum_add_distrib, ← Finset.mul_sum, Finset.sum_const, nsmul_eq_mul, hcard]
    have hu := uu_nonneg
    have h5 : 2 * ((nodes.length : ℚ) + 1) * uu * ∑ j ∈ S, A j ≤
        2 * ((nodes.length : ℚ) + 1) * uu * 2 := mul_le_mul_of_nonneg_left hAs (by positivity)
    have h6 := vv_small hn32
    have h7 : 0 ≤ (nodes.length : ℚ) * uu := by positivity
    unfold eps
    linarith
  have e3 : ∑ j ∈ S, |A j - trustRank f S (k + 1) j| ≤ ∑ i ∈ S, |s i - trustRank f S k i| := by
    have h5 : ∀ j ∈ S, |A j - trustRank f S (k + 1) j| ≤
        ∑ i ∈ S, |s i - trustRank f S k i| * trustShare f S i j := by
      intro j _
      have : A j - trustRank f S (k + 1) j =
          ∑ i ∈ S, (s i - trustRank f S k i) * trustShare f S i j := by
        rw [hA, trustRank, ← Finset.sum_sub_distrib]
        exact Finset.sum_congr rfl (fun i _ => by ring)
      rw [this]
      refine le_trans (Finset.abs_sum_le_sum_abs _ _) (Finset.sum_le_sum (fun i _ => ?_))
      rw [abs_mul, abs_of_nonneg (share_nonneg f S i j)]
    exact le_trans (Finset.sum_le_sum h5) (sum_step_le f S (fun i _ => abs_nonneg _))
  have e4 : ∑ j ∈ S, |s' j - trustRank f S (k + 1) j| ≤
      ∑ j ∈ S, (|s' j - A j| + |A j - trustRank f S (k + 1) j|) :=
    Finset.sum_le_sum (fun j _ => abs_sub_le _ _ _)
  rw [Finset.sum_add_distrib] at e4
  have e5 := h.total
  push_cast
  linarith

theorem After.loop (hr : HalfUlp rnd) (hwf : WF f) (hN : f.nodes.length ≤ 2 ^ 32)
    {nodes : List NodeId} (hin : ∀ x ∈ nodes, x < f.nodes.length) (hnd : nodes.Nodup) (runs : ℕ)
    {k : ℕ} (hk : k + runs ≤ 101) {last : List (Option ℚ)} {s : NodeId → ℚ}
    (h : After f nodes k last s) :
    ∃ b s', rankLoop rnd f nodes runs last = .ok b ∧ After f nodes (k + runs) b s' := by
  induction runs generalizing k last s with
  | zero => exact ⟨last, s, rfl, h⟩
  | succ runs ih =>
    obtain ⟨b, s', h1, h2⟩ := h.step hr hwf hN hin hnd (by omega)
    obtain ⟨b', s'', h3, h4⟩ := ih (k := k + 1) (by omega) h2
    refine ⟨b', s'', ?_, by rwa [show k + (runs + 1) = k + 1 + runs by omega]⟩
    rw [rankLoop, h1, Checked.ok_bind, h3]

theorem After.start (hr : HalfUlp rnd) (hN : f.nodes.length ≤ 2 ^ 32)
    {nodes : List NodeId} (hin : ∀ x ∈ nodes, x < f.nodes.length) (hnd : nodes.Nodup)
    (hne : nodes ≠ []) :
    ∃ s, After f nodes 0
      (List.replicate f.nodes.length (div rnd (some 1) (rnd nodes.length))) s := by
  have hn32 := length_le hN hin hnd
  have hpos : 0 < nodes.length := List.length_pos_iff.2 hne
  have hpos' : (1 : ℚ) ≤ nodes.length := by exact_mod_cast hpos
  have hcard : (ofList nodes).card = nodes.length := List.toFinset_card_of_nodup hnd
  obtain ⟨y, h1, h2, h3⟩ := near hr (x := 1 / nodes.length) (by positivity)
    (le_trans (div_le_one_of_le₀ hpos' (by positivity)) (by norm_num))
  have hdiv : div rnd (some 1) (rnd nodes.length) = some y := by
    rw [hr.int _ (by omega)]
    simp only [div]
    rw [if_neg (by linarith), h1]
  rw [hdiv]
  refine ⟨fun _ => y, by simp, fun j hj => by simp [hj], fun _ _ => h2, fun h => by omega, ?_⟩
  show ∑ j ∈ ofList nodes, |y - 1 / ((ofList nodes).card : ℚ)| ≤ _
  rw [Finset.sum_const, nsmul_eq_mul, hcard]
  have hu := uu_nonneg
  have hv := vv_nonneg
  have e1 : (nodes.length : ℚ) * |y - 1 / nodes.length| ≤
      nodes.length * (1 / nodes.length * uu + vv) := mul_le_mul_of_nonneg_left h3 (by positivity)
  have e2 : (nodes.length : ℚ) * (1 / nodes.length * uu + vv) = uu + nodes.length * vv := by
    rw [mul_add, ← mul_assoc, mul_one_div_cancel (by linarith), one_mul]
  have e3 := vv_small hn32
  have e4 : (nodes.length : ℚ) * vv ≤ 4 * nodes.length * nodes.length * vv := by
    refine mul_le_mul_of_nonneg_right ?_ hv
    have : (nodes.length : ℚ) * 1 ≤ nodes.length * nodes.length :=
      mul_le_mul_of_nonneg_left hpos' (by positivity)
    linarith
  have e5 : 0 ≤ (nodes.length : ℚ) * uu := mul_nonneg (by positivity) hu
  unfold eps
  push_cast
  linarith

/-- Without nodes nothing happens. -/
theorem rankLoop_nil (runs : ℕ) (last : List (Option ℚ)) :
    rankLoop rnd f [] (runs + 1) last = .ok (List.replicate f.nodes.length (some 0)) := by
  induction runs generalizing last with
  | zero => rfl
  | succ runs ih =>
    rw [rankLoop]
    exact ih (List.replicate f.nodes.length (some 0))

/-- The scores: finite, nonnegative, zero for other nodes, close to the exact ones. -/
theorem rankNodes_spec (hr : HalfUlp rnd) (hwf : WF f) (hN : f.nodes.length ≤ 2 ^ 32)
    {nodes : List NodeId} (hin : ∀ x ∈ nodes, x < f.nodes.length) (hnd : nodes.Nodup) :
    ∃ b s, rankNodes rnd f nodes = .ok b ∧ After f nodes 100 b s := by
  have hcard : nodes.length = (ofList nodes).card := (List.toFinset_card_of_nodup hnd).symm
  rw [rankNodes, if_pos hcard]
  by_cases hne : nodes = []
  · subst hne
    refine ⟨_, fun _ => 0, rankLoop_nil 99 _, by simp, fun j hj => by simp [hj], fun _ _ => le_refl _,
      fun _ _ _ _ => rfl, ?_⟩
    have h1 : ofList ([] : List NodeId) = ∅ := rfl
    rw [h1, Finset.sum_empty]
    have := eps_nonneg 0
    positivity
  · obtain ⟨s, hs⟩ := After.start (f := f) hr hN hin hnd hne
    obtain ⟨b, s', h1, h2⟩ := hs.loop hr hwf hN hin hnd 100 (by omega)
    rw [Nat.zero_add] at h2
    exact ⟨b, s', h1, h2⟩

theorem After.near {nodes : List NodeId} {b : List (Option ℚ)} {s : NodeId → ℚ}
    (h : After f nodes 100 b s) {j : NodeId} (hj : j < f.nodes.length) :
    |s j - trustRank f (ofList nodes) 100 j| ≤ (nodes.length + 1) / 2 ^ 44 := by
  have hS : ∀ x, x ∈ ofList nodes ↔ x ∈ nodes := fun x => by simp [ofList]
  by_cases hjn : j ∈ nodes
  · have h1 := Finset.single_le_sum (f := fun j => |s j - trustRank f (ofList nodes) 100 j|)
      (fun j _ => abs_nonneg _) ((hS j).2 hjn)
    refine le_trans h1 (le_trans h.total ?_)
    unfold eps uu
    have : (0 : ℚ) ≤ nodes.length := by positivity
    push_cast
    linarith
  · have h1 : trustRank f (ofList nodes) 100 j = 0 := by
      show ∑ i ∈ _, _ = _
      refine Finset.sum_eq_zero (fun i _ => ?_)
      rw [share_eq, if_neg (fun h => hjn ((hS j).1 (Finset.mem_filter.1 h).2)), mul_zero]
    rw [h1, h.zero (by norm_num) j hj hjn]
    simp only [sub_self, abs_zero]
    positivity

/-! ### Sorting -/

theorem scoreOf_ok {nodes : List NodeId} {k : ℕ} {b : List (Option ℚ)} {s : NodeId → ℚ}
    (h : After f nodes k b s) {x : NodeId} (hx : x < f.nodes.length) : scoreOf b x = .ok (s x) := by
  rw [scoreOf, getE_eq_ok.2 (h.get x hx)]
  rfl

theorem pairwise_of_length_le {α : Type} {r : α → α → Prop} {l : List α} (h : l.length ≤ 1) :
    l.Pairwise r :=
  match l, h with
  | [], _ => List.Pairwise.nil
  | [_], _ => List.pairwise_singleton _ _

theorem zip_map_self {α β : Type} (l : List α) (g : α → β) :
    l.zip (l.map g) = l.map (fun x => (x, g x)) := by
  induction l with
  | nil => rfl
  | cons a l ih => rw [List.map_cons, List.zip_cons_cons, ih]; rfl

theorem sortByRank_spec {nodes : List NodeId} (hin : ∀ x ∈ nodes, x < f.nodes.length)
    {b : List (Option ℚ)} {s : NodeId → ℚ}
    (hb : rankNodes rnd f nodes = .ok b) (h : After f nodes 100 b s) (hnd : nodes.Nodup) :
    ∃ l, sortByRank rnd f nodes = .ok l ∧ l.Perm nodes ∧
      l.Pairwise (fun x y => s y < s x ∨ (s y = s x ∧ [x, y].Sublist nodes)) := by
  rw [sortByRank, hb, Checked.ok_bind]
  by_cases hlen : nodes.length ≤ 1
  · rw [if_pos hlen]
    exact ⟨nodes, rfl, List.Perm.refl _, pairwise_of_length_le hlen⟩
  · rw [if_neg hlen, mapE_ok (h := s) (fun x hx => scoreOf_ok h (hin x hx)), Checked.ok_bind,
      zip_map_self]
    set le : NodeId × ℚ → NodeId × ℚ → Bool := fun p q => decide (q.2 ≤ p.2) with hle
    have htrans : ∀ a b c : NodeId × ℚ, le a b → le b c → le a c := by
      intro a b c h1 h2
      simp only [hle, decide_eq_true_eq] at h1 h2 ⊢
      exact le_trans h2 h1
    have htotal : ∀ a b : NodeId × ℚ, (le a b || le b a) = true := by
      intro a b
      simp only [hle, Bool.or_eq_true, decide_eq_true_eq]
      exact le_total _ _
    set ps := nodes.map (fun x => (x, s x)) with hps
    have hfst : ps.map Prod.fst = nodes := by
      rw [hps, List.map_map]; exact List.map_id _
    refine ⟨(ps.mergeSort le).map Prod.fst, rfl, ?_, ?_⟩
    · have h1 := (List.mergeSort_perm ps le).map Prod.fst
      rwa [hfst] at h1
    · have hpnd : ps.Nodup := hnd.map (fun x y hxy => (Prod.mk.inj hxy).1)
      have hmem : ∀ p ∈ ps.mergeSort le, p.2 = s p.1 := by
        intro p hp
        have := (List.mergeSort_perm ps le).mem_iff.1 hp
        obtain ⟨x, _, rfl⟩ := List.mem_map.1 this
        rfl
      rw [List.pairwise_map, List.pairwise_iff_forall_sublist]
      intro p q hpq
      have hp : p ∈ ps.mergeSort le := hpq.subset (by simp)
      have hq : q ∈ ps.mergeSort le := hpq.subset (by simp)
      have hle' : q.2 ≤ p.2 := by
        have := List.pairwise_iff_forall_sublist.1 (List.pairwise_mergeSort htrans htotal ps) hpq
        simpa [hle] using this
      rw [← hmem p hp, ← hmem q hq]
      rcases lt_or_eq_of_le hle' with hlt | heq
      · exact Or.inl hlt
      · refine Or.inr ⟨heq, ?_⟩
        have hpn : p ∈ ps := (List.mergeSort_perm ps le).mem_iff.1 hp
        have hqn : q ∈ ps := (List.mergeSort_perm ps le).mem_iff.1 hq
        have hsnd : (ps.mergeSort le).Nodup := (List.mergeSort_perm ps le).nodup_iff.2 hpnd
        have hne : p ≠ q := by
          intro h; subst h
          have := hpq.nodup hsnd
          simp at this
        -- otherwise the order would be the other one
        have key : [p, q].Sublist ps ∨ [q, p].Sublist ps := by
          obtain ⟨u, v, huv⟩ := List.append_of_mem hpn
          rw [huv] at hqn ⊢
          rcases List.mem_append.1 hqn with h1 | h1
          · right
            exact (List.singleton_sublist.2 h1).append
              ((List.singleton_sublist.2 (by simp : p ∈ p :: v)))
          · rcases List.mem_cons.1 h1 with h2 | h2
            · exact absurd h2.symm hne
            · left
              exact (((List.singleton_sublist.2 h2)).cons_cons p).trans (List.sublist_append_right _ _)
        rcases key with h1 | h1
        · have := h1.map Prod.fst
          rwa [hfst] at this
        · exfalso
          have h2 := List.pair_sublist_mergeSort htrans htotal (by simp [hle, heq]) h1
          -- both orders in a list without duplicates
          have h3 : ∀ {l : List (NodeId × ℚ)}, l.Nodup → [p, q].Sublist l → [q, p].Sublist l → False := by
            intro l
            induction l with
            | nil => intro _ h _; simp at h
            | cons a l ih =>
              intro hn h4 h5
              rw [List.nodup_cons] at hn
              rw [List.sublist_cons_iff] at h4 h5
              rcases h4 with h4 | ⟨r, h4, h4'⟩
              · rcases h5 with h5 | ⟨r, h5, h5'⟩
                · exact ih hn.2 h4 h5
                · obtain ⟨rfl, rfl⟩ := List.cons.inj h5
                  exact hn.1 (h4.subset (by simp))
              · obtain ⟨rfl, rfl⟩ := List.cons.inj h4
                rcases h5 with h5 | ⟨r, h5, h5'⟩
                · exact hn.1 (h5.subset (by simp))
                · exact hne (List.cons.inj h5).1.symm
          exact h3 hsnd hpq h2

/-- Nodes that do not exist cause a panic. -/
theorem rankNodes_error {nodes : List NodeId} (h : ¬ ∀ x ∈ nodes, x < f.nodes.length) :
    ∃ e, rankNodes rnd f nodes = .error e := by
  push Not at h
  obtain ⟨x, hx, hge⟩ := h
  unfold rankNodes
  split
  · rw [rankLoop]
    have key : ∀ (last : List (Option ℚ)) (l : List NodeId) (b : List (Option ℚ)), x ∈ l →
        ∃ e, foldE (rankNode rnd f (ofList nodes) last) b l = .error e := by
      intro last l
      induction l with
      | nil => intro b h; simp at h
      | cons a l ih =>
        intro b hxl
        rw [foldE]
        cases hg : rankNode rnd f (ofList nodes) last b a with
        | error e => exact ⟨e, rfl⟩
        | ok b' =>
          rcases List.mem_cons.1 hxl with h1 | h1
          · subst h1
            rw [rankNode, getE, List.getElem?_eq_none hge] at hg
            cases hg
          · exact ih b' h1
    obtain ⟨e, he⟩ := key _ nodes (List.replicate f.nodes.length (some 0)) hx
    rw [he]
    exact ⟨e, rfl⟩
  · exact ⟨_, rfl⟩

end FA.Ranking

namespace FA.F64
open FA Spec

theorem nearestInt_half (x : ℚ) : |(nearestInt x : ℚ) - x| ≤ 1 / 2 := by
  refine le_trans (nearestInt_spec x (_root_.round x)) ?_
  rw [abs_sub_comm]
  exact abs_sub_round x

theorem nearestInt_nonneg {x : ℚ} (hx : 0 ≤ x) : 0 ≤ nearestInt x := by
  have : 0 ≤ ⌊x⌋ := Int.floor_nonneg.2 hx
  unfold nearestInt
  dsimp only
  split
  · exact this
  · split
    · omega
    · split <;> omega

theorem pow2_mono {a b : ℤ} (h : a ≤ b) : pow2 a ≤ pow2 b := by
  rw [pow2_eq, pow2_eq]; exact zpow_le_zpow_right₀ (by norm_num) h

theorem pow2_half (z : ℤ) : pow2 z / 2 = pow2 (z - 1) := by
  rw [pow2_eq, pow2_eq, zpow_sub_one₀ (by norm_num)]; rfl

/-- The rounding of IEEE 754 has the assumed properties. -/
theorem finite_halfUlp : HalfUlp finite where
  int n hn := by
    unfold finite
    by_cases h0 : n = 0
    · subst h0; simp
    have hpos : (0 : ℚ) < n := by exact_mod_cast Nat.pos_of_ne_zero h0
    have hone : (1 : ℚ) ≤ n := by exact_mod_cast Nat.pos_of_ne_zero h0
    rw [if_neg hpos.ne', if_pos hpos]
    obtain ⟨h1, h2⟩ := exponent_spec hpos
    have he : 0 ≤ exponent n := by
      by_contra hneg
      have : pow2 (exponent n + 1) ≤ pow2 0 := pow2_mono (by omega)
      have e0 : pow2 0 = 1 := by rw [pow2_eq]; norm_num
      rw [e0] at this
      linarith
    have hmax : max (exponent (n : ℚ) - 52) (-1074) = exponent (n : ℚ) - 52 :=
      max_eq_left (by omega)
    have hround : roundPos (n : ℚ) = n := by
      have h3 := roundPos_nearest hpos n 0 (by
        rw [abs_of_nonneg (by omega)]; exact_mod_cast hn)
      have e0 : pow2 0 = 1 := by rw [pow2_eq]; norm_num
      rw [e0, mul_one] at h3
      have e1 : ((n : ℤ) : ℚ) - (n : ℚ) = 0 := by push_cast; ring
      rw [e1, abs_zero] at h3
      have := abs_nonpos_iff.1 h3
      linarith
    unfold finitePos
    dsimp only
    rw [hmax]
    have hr : (nearestInt ((n : ℚ) / pow2 (exponent (n : ℚ) - 52)) : ℚ) *
        pow2 (exponent (n : ℚ) - 52) = n := hround
    rw [hr, if_pos]
    have h53 : (n : ℚ) ≤ pow2 53 := by
      have : (n : ℚ) ≤ 2 ^ 53 := by exact_mod_cast hn
      rw [pow2_eq]
      refine le_trans this (by norm_num)
    refine lt_of_le_of_lt h53 ?_
    rw [pow2_eq, pow2_eq]
    exact zpow_lt_zpow_right₀ (by norm_num) (by norm_num)
  near x hx h4 := by
    unfold finite
    by_cases h0 : x = 0
    · subst h0
      refine ⟨0, by simp, le_refl _, ?_⟩
      rw [sub_self, abs_zero, zero_div, zero_add]
      exact one_div_nonneg.2 (pow_nonneg (by norm_num) _)
    have hpos : 0 < x := lt_of_le_of_ne hx (Ne.symm h0)
    rw [if_neg h0, if_pos hpos]
    obtain ⟨h1, _⟩ := exponent_spec hpos
    unfold finitePos
    dsimp only
    set u := pow2 (max (exponent x - 52) (-1074)) with hu
    have hu0 : 0 < u := pow2_pos _
    set r := (nearestInt (x / u) : ℚ) * u with hr
    have hr0 : 0 ≤ r := by
      refine mul_nonneg ?_ hu0.le
      exact_mod_cast nearestInt_nonneg (div_nonneg hx hu0.le)
    have hre : |r - x| ≤ u / 2 := by
      have e1 : r - x = ((nearestInt (x / u) : ℚ) - x / u) * u := by
        rw [hr, sub_mul, div_mul_cancel₀ _ hu0.ne']
      rw [e1, abs_mul, abs_of_pos hu0]
      have := mul_le_mul_of_nonneg_right (nearestInt_half (x / u)) hu0.le
      linarith
    have hxu : u / 2 ≤ x / 2 ^ 53 + 1 / 2 ^ 1075 := by
      have v0 : (0 : ℚ) ≤ 1 / 2 ^ 1075 := one_div_nonneg.2 (pow_nonneg (by norm_num) _)
      have x0 : 0 ≤ x / 2 ^ 53 := by positivity
      rcases le_total (-1074) (exponent x - 52) with h | h
      · have e1 : u / 2 = pow2 (exponent x) / 2 ^ 53 := by
          rw [hu, max_eq_left h, pow2_half, pow2_eq, pow2_eq, eq_div_iff (by positivity),
            ← zpow_natCast, ← zpow_add₀ (by norm_num)]
          congr 1; push_cast; ring
        have e2 : pow2 (exponent x) / 2 ^ 53 ≤ x / 2 ^ 53 :=
          div_le_div_of_nonneg_right h1 (by positivity)
        rw [e1]
        exact le_trans e2 (le_add_of_nonneg_right v0)
      · have e1 : u / 2 = 1 / 2 ^ 1075 := by
          rw [hu, max_eq_right h, pow2_half, pow2_eq, one_div, ← zpow_natCast, ← zpow_neg]
          rfl
        rw [e1]
        exact le_add_of_nonneg_left x0
    have hlt : r < pow2 1024 := by
      have e1 := (abs_le.1 hre).2
      have e2 : (1 : ℚ) / 2 ^ 1075 ≤ 1 :=
        div_le_one_of_le₀ (one_le_pow₀ (by norm_num)) (pow_nonneg (by norm_num) _)
      have e3 : x / 2 ^ 53 ≤ x := div_le_self hx (one_le_pow₀ (by norm_num))
      have e4 : (16 : ℚ) ≤ pow2 1024 := by
        have : pow2 4 ≤ pow2 1024 := pow2_mono (by norm_num)
        refine le_trans ?_ this
        rw [pow2_eq]; norm_num
      have e5 : r ≤ x + (x + 1) := by
        have := le_trans (le_trans e1 hxu) (add_le_add e3 e2)
        clear e1 e2 hxu
        linarith
      clear e1 e2 hxu
      linarith
    exact ⟨r, by rw [if_pos hlt], hr0, le_trans hre hxu⟩

end FA.F64
