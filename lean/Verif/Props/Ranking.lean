import Verif.Lemmas.Ranking
import Verif.Ref.Decide

/-!
# C73: ranking of nodes
-/

namespace FA.Props
open FA Spec Ranking

/-- C73: the rounding of IEEE 754 binary64 numbers has the properties assumed below. -/
theorem C73_ieee : HalfUlp F64.finite := F64.finite_halfUlp

/-- C73: `rank_nodes` does not panic. All scores are finite and not negative, those of other nodes are
zero, and those of the ranked nodes differ from the exact result of 100 steps of page rank by at most
`(n + 1) / 2^44`, in spite of rounding after each operation. -/
theorem C73_scores {rnd : ℚ → Option ℚ} (hr : HalfUlp rnd) (f : Fbas) (hwf : WF f)
    (hN : f.nodes.length ≤ 2 ^ 32) (nodes : List NodeId) (hin : ∀ x ∈ nodes, x < f.nodes.length)
    (hnd : nodes.Nodup) :
    ∃ scores : List (Option ℚ), rankNodes rnd f nodes = .ok scores ∧
      scores.length = f.nodes.length ∧
      ∀ x < f.nodes.length, ∃ s : ℚ, scores[x]? = some (some s) ∧ 0 ≤ s ∧ (x ∉ nodes → s = 0) ∧
        |s - trustRank f nodes.toFinset 100 x| ≤ (nodes.length + 1) / 2 ^ 44 := by
  obtain ⟨b, s, h1, h2⟩ := rankNodes_spec hr hwf hN hin hnd
  exact ⟨b, h1, h2.length, fun x hx =>
    ⟨s x, h2.get x hx, h2.nonneg x hx, h2.zero (by norm_num) x hx, h2.near hx⟩⟩

/-- C73: `Fbas::rank_nodes` ranks all nodes. -/
theorem C73_all {rnd : ℚ → Option ℚ} (hr : HalfUlp rnd) (f : Fbas) (hwf : WF f)
    (hN : f.nodes.length ≤ 2 ^ 32) :
    ∃ scores : List (Option ℚ), rankAllNodes rnd f = .ok scores ∧
      scores.length = f.nodes.length ∧
      ∀ x < f.nodes.length, ∃ s : ℚ, scores[x]? = some (some s) ∧ 0 ≤ s ∧
        |s - trustRank f (Finset.range f.nodes.length) 100 x| ≤ (f.nodes.length + 1) / 2 ^ 44 := by
  obtain ⟨b, h1, h2, h3⟩ := C73_scores hr f hwf hN (List.range f.nodes.length)
    (fun x hx => List.mem_range.1 hx) List.nodup_range
  refine ⟨b, h1, h2, fun x hx => ?_⟩
  obtain ⟨s, e1, e2, _, e3⟩ := h3 x hx
  have hR : (List.range f.nodes.length).toFinset = Finset.range f.nodes.length := by
    ext y; simp
  rw [hR, List.length_range] at e3
  exact ⟨s, e1, e2, e3⟩

/-- C73: `sort_by_rank` reorders the nodes by descending (rounded) score; nodes with the same score stay
in their order. -/
theorem C73_sorted {rnd : ℚ → Option ℚ} (hr : HalfUlp rnd) (f : Fbas) (hwf : WF f)
    (hN : f.nodes.length ≤ 2 ^ 32) (nodes : List NodeId) (hin : ∀ x ∈ nodes, x < f.nodes.length)
    (hnd : nodes.Nodup) :
    ∃ (scores : List (Option ℚ)) (l : List NodeId), rankNodes rnd f nodes = .ok scores ∧
      sortByRank rnd f nodes = .ok l ∧ l.Perm nodes ∧
      ∀ x y, [x, y].Sublist l → ∃ s t : ℚ, scores[x]? = some (some s) ∧ scores[y]? = some (some t) ∧
        (t < s ∨ (t = s ∧ [x, y].Sublist nodes)) := by
  obtain ⟨b, s, h1, h2⟩ := rankNodes_spec hr hwf hN hin hnd
  obtain ⟨l, h3, h4, h5⟩ := sortByRank_spec hin h1 h2 hnd
  refine ⟨b, l, h1, h3, h4, fun x y hxy => ⟨s x, s y, ?_, ?_, ?_⟩⟩
  · exact h2.get x (hin x (h4.mem_iff.1 (hxy.subset (by simp))))
  · exact h2.get y (hin y (h4.mem_iff.1 (hxy.subset (by simp))))
  · exact List.pairwise_iff_forall_sublist.1 h5 hxy

/-- Of two elements of a list without duplicates one comes first. -/
theorem sublist_or {α : Type} {l : List α} {x y : α} (hx : x ∈ l) (hy : y ∈ l) (hne : x ≠ y) :
    [x, y].Sublist l ∨ [y, x].Sublist l := by
  obtain ⟨u, v, rfl⟩ := List.append_of_mem hx
  rcases List.mem_append.1 hy with h1 | h1
  · exact Or.inr ((List.singleton_sublist.2 h1).append
      (List.singleton_sublist.2 (by simp : x ∈ x :: v)))
  · rcases List.mem_cons.1 h1 with h2 | h2
    · exact absurd h2.symm hne
    · exact Or.inl (((List.singleton_sublist.2 h2).cons_cons x).trans (List.sublist_append_right _ _))

/-- C73: if the exact rank of a node is noticeably higher than that of another one, then
`sort_by_rank` puts it first, in spite of rounding. -/
theorem C73_order {rnd : ℚ → Option ℚ} (hr : HalfUlp rnd) (f : Fbas) (hwf : WF f)
    (hN : f.nodes.length ≤ 2 ^ 32) (nodes : List NodeId) (hin : ∀ x ∈ nodes, x < f.nodes.length)
    (hnd : nodes.Nodup) (l : List NodeId) (hl : sortByRank rnd f nodes = .ok l) (x y : NodeId)
    (hx : x ∈ nodes) (hy : y ∈ nodes)
    (hxy : trustRank f nodes.toFinset 100 y + (nodes.length + 1) / 2 ^ 43 <
      trustRank f nodes.toFinset 100 x) : [x, y].Sublist l := by
  obtain ⟨b, s, h1, h2⟩ := rankNodes_spec hr hwf hN hin hnd
  obtain ⟨l', h3, h4, h5⟩ := sortByRank_spec hin h1 h2 hnd
  rw [hl] at h3
  obtain rfl := Except.ok.inj h3
  have ex := abs_le.1 (h2.near (hin x hx))
  have ey := abs_le.1 (h2.near (hin y hy))
  have e : ((nodes.length : ℚ) + 1) / 2 ^ 43 =
      (nodes.length + 1) / 2 ^ 44 + (nodes.length + 1) / 2 ^ 44 := by ring
  have hlt : s y < s x := by
    have h6 : trustRank f nodes.toFinset 100 y + ((nodes.length : ℚ) + 1) / 2 ^ 44 +
      (nodes.length + 1) / 2 ^ 44 < trustRank f nodes.toFinset 100 x := by linarith
    have h7 := ex.1
    have h8 := ey.2
    have h9 : ofList nodes = nodes.toFinset := rfl
    rw [h9] at h7 h8
    linarith
  have hne : x ≠ y := by rintro rfl; exact lt_irrefl _ hlt
  rcases sublist_or (h4.mem_iff.2 hx) (h4.mem_iff.2 hy) hne with h | h
  · exact h
  · rcases List.pairwise_iff_forall_sublist.1 h5 h with h' | ⟨h', _⟩ <;> linarith

/-- C73: `sort_by_rank` panics exactly if the list has duplicates or contains IDs of nodes that do not
exist. In particular no score is NaN. -/
theorem C73_panics_iff {rnd : ℚ → Option ℚ} (hr : HalfUlp rnd) (f : Fbas) (hwf : WF f)
    (hN : f.nodes.length ≤ 2 ^ 32) (nodes : List NodeId) :
    (∃ e, sortByRank rnd f nodes = .error e) ↔
      ¬ nodes.Nodup ∨ ∃ x ∈ nodes, f.nodes.length ≤ x := by
  constructor
  · rintro ⟨e, he⟩
    by_contra h
    push Not at h
    obtain ⟨_, l, _, h1, _⟩ := C73_sorted hr f hwf hN nodes h.2 h.1
    rw [h1] at he
    cases he
  · rintro (h | ⟨x, hx, hge⟩)
    · have hne : nodes.length ≠ (ofList nodes).card := by
        intro h'
        have h1 : nodes.dedup.length = nodes.length := h'.symm
        rw [← (List.dedup_sublist nodes).eq_of_length h1] at h
        exact h (List.nodup_dedup nodes)
      exact ⟨.assertion, by rw [sortByRank, rankNodes, if_neg hne]; rfl⟩
    · obtain ⟨e, he⟩ := rankNodes_error (rnd := rnd) (f := f) (nodes := nodes)
        (fun h => absurd (h x hx) (not_lt.2 hge))
      exact ⟨e, by rw [sortByRank, he]; rfl⟩

/-- C73: the analyses are modelled with an arbitrary order (`Env.rank`). The order that `sort_by_rank`
computes with rounded numbers is one of these, so that all theorems hold for it. -/
theorem C73_environment (env : Env) : ∃ env' : Env, env'.scc = env.scc ∧
    ∀ (f : Fbas), WF f → f.nodes.length ≤ 2 ^ 32 → ∀ nodes : List NodeId,
      (∀ x ∈ nodes, x < f.nodes.length) → nodes.Nodup →
      sortByRank F64.finite f nodes = .ok (env'.rank f nodes) := by
  refine ⟨⟨env.scc, env.scc_spec,
    fun f l => match sortByRank F64.finite f l with
      | .ok r => if r.Perm l then r else l
      | .error _ => l, fun f l => ?_⟩, rfl, fun f hwf hN nodes hin hnd => ?_⟩
  · split
    · split
      · assumption
      · exact List.Perm.refl _
    · exact List.Perm.refl _
  · obtain ⟨_, l, _, h1, h2, _⟩ := C73_sorted C73_ieee f hwf hN nodes hin hnd
    dsimp only
    rw [h1]
    dsimp only
    rw [if_pos h2]

/-- C73: exact ranks are not negative and their sum is at most one. It is one if the ranked nodes list
somebody, and only each other. -/
theorem C73_sum (f : Fbas) (S : Finset NodeId) (k : ℕ) :
    (∀ x, 0 ≤ trustRank f S k x) ∧ ∑ x ∈ S, trustRank f S k x ≤ 1 ∧
    (S.Nonempty → (∀ x ∈ S, (∃ y, Trusts f x y) ∧ ∀ y, Trusts f x y → y ∈ S) →
      ∑ x ∈ S, trustRank f S k x = 1) := by
  refine ⟨rank_nonneg f S k, rank_sum_le f S k, fun hne h => ?_⟩
  have hshare : ∀ i ∈ S, ∑ j ∈ S, trustShare f S i j = 1 := by
    intro i hi
    rw [Finset.sum_congr rfl (fun j _ => share_eq i j), Finset.sum_ite_mem]
    have hsub : S ∩ (f.qset i).containedNodes.filter (fun y => y ∈ S) =
        (f.qset i).containedNodes := by
      ext y
      rw [Finset.mem_inter, Finset.mem_filter, QuorumSet.mem_containedNodes, ← trusts_iff]
      exact ⟨fun h' => h'.2.1, fun h' => ⟨(h i hi).2 y h', h', (h i hi).2 y h'⟩⟩
    obtain ⟨y, hy⟩ := (h i hi).1
    have hpos : (0 : ℚ) < (f.qset i).containedNodes.card := by
      exact_mod_cast Finset.card_pos.2 ⟨y, QuorumSet.mem_containedNodes.2 (trusts_iff.1 hy)⟩
    rw [hsub, Finset.sum_const, nsmul_eq_mul, mul_one_div_cancel hpos.ne']
  induction k with
  | zero =>
    have hpos : (0 : ℚ) < S.card := by exact_mod_cast Finset.card_pos.2 hne
    show ∑ x ∈ S, 1 / (S.card : ℚ) = 1
    rw [Finset.sum_const, nsmul_eq_mul, mul_one_div_cancel hpos.ne']
  | succ k ih =>
    show ∑ j ∈ S, ∑ i ∈ S, trustRank f S k i * trustShare f S i j = 1
    rw [Finset.sum_comm, ← ih]
    refine Finset.sum_congr rfl (fun i hi => ?_)
    rw [← Finset.mul_sum, hshare i hi, mul_one]

/-- C73: nodes that no ranked node lists have rank zero. -/
theorem C73_untrusted (f : Fbas) (S : Finset NodeId) (k : ℕ) (hk : 0 < k) (x : NodeId)
    (h : ∀ i ∈ S, ¬ Trusts f i x) : trustRank f S k x = 0 := by
  obtain ⟨k, rfl⟩ := Nat.exists_eq_add_of_lt hk
  rw [Nat.zero_add]
  show ∑ i ∈ S, _ = _
  refine Finset.sum_eq_zero (fun i hi => ?_)
  unfold trustShare
  rw [if_neg (fun h' => h i hi h'.2), mul_zero]

/-- C73: if all ranked nodes list each other and nobody else, they have equal ranks. -/
theorem C73_symmetric (f : Fbas) (S : Finset NodeId) (k : ℕ)
    (h : ∀ x ∈ S, ∀ y, Trusts f x y ↔ y ∈ S) (x : NodeId) (hx : x ∈ S) :
    trustRank f S k x = 1 / S.card := by
  induction k generalizing x with
  | zero => rfl
  | succ k ih =>
    show ∑ i ∈ S, _ = _
    have hpos : (0 : ℚ) < S.card := by exact_mod_cast Finset.card_pos.2 ⟨x, hx⟩
    have : ∀ i ∈ S, trustRank f S k i * trustShare f S i x = 1 / S.card * (1 / S.card) := by
      intro i hi
      rw [ih i hi]
      unfold trustShare
      have hs : {y | Trusts f i y} = (S : Set NodeId) := by
        ext y; exact h i hi y
      rw [if_pos ⟨hx, (h i hi x).2 hx⟩, hs, Set.ncard_coe_finset]
    rw [Finset.sum_congr rfl this, Finset.sum_const, nsmul_eq_mul, ← mul_assoc,
      mul_one_div_cancel hpos.ne', one_mul]

/-- Nodes 0 and 1 list each other, node 2 lists them. -/
def rankExample : Fbas :=
  Ref.mkFbas [⟨2, [0, 1], []⟩, ⟨1, [0, 1], []⟩, ⟨2, [0, 1], []⟩]

theorem rankExample_wf : WF rankExample := Ref.wf_of (by decide +kernel)

theorem rankExample_trusts (i : NodeId) (hi : i < 3) (y : NodeId) :
    Trusts rankExample i y ↔ y = 0 ∨ y = 1 := by
  rw [trusts_iff, ← QuorumSet.mem_containedNodes]
  have : ∀ i < 3, (rankExample.qset i).containedNodes = {0, 1} := by decide +kernel
  rw [this i hi]
  simp

example : rankExample.nodes.length ≤ 2 ^ 32 ∧ ([2, 0, 1] : List NodeId).Nodup ∧
    (∀ x ∈ ([2, 0, 1] : List NodeId), x < rankExample.nodes.length) :=
  ⟨by decide +kernel, by decide, by decide⟩

/-- With the numbers of IEEE 754, node 2 gets the lowest score. -/
example : (match rankNodes F64.finite rankExample [2, 0, 1] with
    | .ok [some a, some b, some c] => decide (a = b ∧ c < b ∧ c = 0)
    | _ => false) = true := by decide +kernel

/-- The hypothesis of `C73_order` for the nodes 0 and 2. -/
example : trustRank rankExample ([2, 0, 1] : List NodeId).toFinset 100 2 +
    ((([2, 0, 1] : List NodeId).length : ℚ) + 1) / 2 ^ 43 <
      trustRank rankExample ([2, 0, 1] : List NodeId).toFinset 100 0 := by
  set S := ([2, 0, 1] : List NodeId).toFinset with hS
  have hmem : ∀ i ∈ S, i < 3 := by decide
  have h2 : trustRank rankExample S 100 2 = 0 :=
    C73_untrusted _ _ _ (by norm_num) _ (fun i hi h => by
      rcases (rankExample_trusts i (hmem i hi) 2).1 h with h | h <;> cases h)
  have hsum := (C73_sum rankExample S 100).2.2 ⟨2, by decide⟩ (fun x hx =>
    ⟨⟨0, (rankExample_trusts x (hmem x hx) 0).2 (Or.inl rfl)⟩, fun y hy => by
      rcases (rankExample_trusts x (hmem x hx) y).1 hy with rfl | rfl <;> decide⟩)
  have h01 : trustRank rankExample S 100 0 = trustRank rankExample S 100 1 := by
    show ∑ i ∈ S, _ = ∑ i ∈ S, _
    refine Finset.sum_congr rfl (fun i hi => ?_)
    have h0 : trustShare rankExample S i 0 = trustShare rankExample S i 1 := by
      unfold trustShare
      rw [if_pos ⟨by decide, (rankExample_trusts i (hmem i hi) 0).2 (Or.inl rfl)⟩,
        if_pos ⟨by decide, (rankExample_trusts i (hmem i hi) 1).2 (Or.inr rfl)⟩]
    rw [h0]
  have hS' : S = {2, 0, 1} := by decide
  have hs : trustRank rankExample S 100 2 + (trustRank rankExample S 100 0 +
      trustRank rankExample S 100 1) = 1 := by
    rw [← hsum, hS', Finset.sum_insert (by decide), Finset.sum_insert (by decide), Finset.sum_singleton]
  have hr : trustRank rankExample S 100 0 = 1 / 2 := by linarith
  rw [h2, hr]
  norm_num

#print axioms C73_ieee
#print axioms C73_scores
#print axioms C73_all
#print axioms C73_sorted
#print axioms C73_order
#print axioms C73_panics_iff
#print axioms C73_environment
#print axioms C73_sum
#print axioms C73_untrusted
#print axioms C73_symmetric

end FA.Props
