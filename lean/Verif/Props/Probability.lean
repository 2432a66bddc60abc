import Verif.Lemmas.RandomNetwork
import Verif.Lemmas.ScaleFreeProbability
import Verif.Props.RandomRange
import Verif.Props.SimulatorTools
import Verif.Ref.Decide
import Mathlib.Data.Nat.Factorial.Basic

/-!
# C102: probabilities of random quorum sets and graphs
-/

namespace FA
open Spec Simulator Props

theorem scaleFree_iff {R : Rand} {s s' : R.State} {n m0 m : ℕ} (h2 : 2 ≤ m0) (hn : m0 ≤ n) (hm : 1 ≤ m) (hmm : m ≤ m0)
    {o : List (List ℕ)} (ho : Graph.scaleFreeInit m0 (List.replicate n []) = .ok o) {g : Graph} :
    Graph.newRandomScaleFree R s n m0 m = .ok (g, s') ↔
      sfLoop R m (o, s) (rangeFT m0 n) = .ok (g.outlinks, s') := by
  have key : ∀ g1 s1, Graph.newRandomScaleFree R s n m0 m = .ok (g1, s1) →
      sfLoop R m (o, s) (rangeFT m0 n) = .ok (g1.outlinks, s1) := by
    intro g1 s1 h
    unfold Graph.newRandomScaleFree at h
    rw [if_pos ⟨hm, hmm, hmm.trans hn⟩, ho] at h
    dsimp only at h
    have hs : foldE (fun (st : List (List ℕ) × R.State) i => Graph.scaleFreeLinks R i m (st.1, rangeFT 0 i, st.2))
      (o, s) (rangeFT m0 n) = sfLoop R m (o, s) (rangeFT m0 n) := rfl
    rw [hs] at h
    cases hl : sfLoop R m (o, s) (rangeFT m0 n) with
    | error e => rw [hl] at h; cases h
    | ok pr =>
      obtain ⟨o', s2⟩ := pr
      rw [hl] at h
      dsimp only at h
      cases ha : Graph.assertUndirected ⟨o'⟩ with
      | error e => rw [ha] at h; cases h
      | ok g' =>
        rw [ha] at h
        obtain ⟨rfl, rfl⟩ := Prod.mk.inj (Except.ok.inj h)
        have : g' = ⟨o'⟩ := by
          unfold Graph.assertUndirected at ha
          split at ha
          · cases ha
          · exact (Except.ok.inj ha).symm
          · cases ha
        rw [this]
  constructor
  · exact key g s'
  · intro h
    obtain ⟨g1, s1, h1, -⟩ := C48_scale_free R s n m0 m h2 hn hm hmm
    have h3 := key g1 s1 h1
    rw [h] at h3
    obtain ⟨h4, rfl⟩ := Prod.mk.inj (Except.ok.inj h3)
    obtain ⟨o1⟩ := g
    obtain ⟨o2⟩ := g1
    dsimp only at h4
    rw [h4]
    exact h1

theorem orderBy_probability {L : ℕ} (hL : 0 < L) {k : ℕ} {l σ : List ℕ} (hk : l.length = k) (hl : l.Nodup)
    (hσ : σ.Perm l) (hd : ∀ d, 0 < d → d ≤ k → d ∣ L) :
    Probability L k (fun r => (orderBy k r l).1 = σ) = 1 / (k.factorial : ℕ) := by
  induction k generalizing l σ with
  | zero =>
    obtain rfl := List.length_eq_zero_iff.1 hk
    rw [List.Perm.eq_nil hσ, Nat.factorial_zero, Nat.cast_one, div_one]
    exact probability_zero rfl
  | succ k ih =>
    cases σ with
    | nil =>
      have := hσ.length_eq
      rw [hk] at this
      cases this
    | cons x σ =>
      have hx : x ∈ l := hσ.mem_iff.1 List.mem_cons_self
      have hsum : l.length = (l.map (fun _ => 1)).sum := by simp
      have hσ' : σ.Perm (l.erase x) := by
        have := hσ.erase x
        rwa [List.erase_cons_head] at this
      rw [probability_choice_one hL hl hsum (by omega) (hd _ (by omega) (Nat.le_of_eq hk)) hx
        (Q := fun r => (orderBy k r (l.erase x)).1 = σ) (fun a r => ?_),
        ih (by rw [List.length_erase_of_mem hx, hk, Nat.add_sub_cancel]) (hl.erase x) hσ'
          (fun d h1 h2 => hd d h1 (Nat.le_succ_of_le h2)), hk, Nat.factorial_succ, Nat.cast_mul, Nat.cast_one,
        ← one_div_mul_one_div]
      rw [orderBy, List.headD_cons]
      cases hc : candidateAt (fun _ => 1) (a % l.length) l with
      | none =>
        exfalso
        refine candidateAt_lt (w := fun _ => 1) (l := l) (r := a % l.length) ?_ hc
        rw [← hsum]
        exact Nat.mod_lt _ (by omega)
      | some y =>
        dsimp only
        rw [List.tail_cons, List.cons.injEq, Option.some.injEq]
        constructor
        · rintro ⟨rfl, h⟩; exact ⟨rfl, h⟩
        · rintro ⟨rfl, h⟩; exact ⟨rfl, h⟩

end FA

namespace FA.Props
open FA Spec Simulator

/-- C102: the generator for which the probabilities below are stated is fair: every candidate is chosen with the
probability that its weight has in the sum of weights, every order with probability `1 / n!`, and coins with probability
`k / L` are heads with this probability. -/
theorem C102_fair (L : ℕ) (hL : 0 < L) :
    (∀ (w : ℕ → ℕ) (l : List NodeId) (x : NodeId), l.Nodup → x ∈ l → 0 < (l.map w).sum → (l.map w).sum ∣ L →
      Probability L 1 (fun r => ((lottery L).chooseWeighted r w l).1 = some x) = (w x : ℚ) / ((l.map w).sum : ℕ)) ∧
    (∀ (l : List NodeId) (x : NodeId), l.Nodup → x ∈ l → l.length ∣ L →
      Probability L 1 (fun r => ((lottery L).choose r l).1 = some x) = 1 / (l.length : ℚ)) ∧
    (∀ (l σ : List NodeId), l.Nodup → σ.Perm l → (∀ d, 0 < d → d ≤ l.length → d ∣ L) →
      Probability L l.length (fun r => ((lottery L).shuffle r l).1 = σ) = 1 / (l.length.factorial : ℕ)) ∧
    ∀ k ≤ L, Probability L 1 (fun r => ((lottery L).genBool r ((k : ℚ) / L)).1 = true) = (k : ℚ) / L := by
  refine ⟨fun w l x hl hx h0 hd => ?_, fun l x hl hx hd => ?_, fun l σ hl hσ hd => orderBy_probability hL rfl hl hσ hd,
    fun k hk => ?_⟩
  · rw [probability_choice_one (N := 0) hL hl rfl h0 hd hx (Q := fun _ => True) (fun a r => ?_),
      probability_zero trivial, mul_one]
    exact (and_iff_left trivial).symm
  · have hsum : l.length = (l.map (fun _ => 1)).sum := by simp
    rw [probability_choice_one (N := 0) hL hl hsum (List.length_pos_of_mem hx) hd hx (Q := fun _ => True)
      (fun a r => ?_), probability_zero trivial, mul_one, Nat.cast_one]
    rw [hsum]
    exact (and_iff_left trivial).symm
  · have hL' : (L : ℚ) ≠ 0 := by exact_mod_cast hL.ne'
    rw [probability_succ]
    congr 1
    have hterm : ∀ a ∈ Finset.range L, Probability L 0 (fun r => ((lottery L).genBool (a :: r : List ℕ)
        ((k : ℚ) / L)).1 = true) = if a < k then 1 else 0 := by
      intro a _
      have he : ∀ r : List ℕ, ((lottery L).genBool (a :: r : List ℕ) ((k : ℚ) / L)).1 = true ↔ a < k := by
        intro r
        show decide ((a : ℚ) < (k : ℚ) / L * L) = true ↔ _
        rw [decide_eq_true_eq, div_mul_cancel₀ _ hL', Nat.cast_lt]
      split
      · rename_i h
        exact probability_zero ((he []).2 h)
      · rename_i h
        exact probability_false (fun r _ _ h1 => h ((he r).1 h1))
    rw [Finset.sum_congr rfl hterm, Finset.sum_boole]
    congr 1
    rw [show (Finset.range L).filter (fun a => a < k) = Finset.range k by
      ext a; rw [Finset.mem_filter, Finset.mem_range, Finset.mem_range]; omega, Finset.card_range]

/-- Node 2 has weight 3 of 6; one of the six orders; heads in one of three cases. -/
example : Probability 6 1 (fun r => ((lottery 6).chooseWeighted r (fun x => x + 1) [0, 1, 2]).1 = some 2) = 1 / 2 ∧
    Probability 6 3 (fun r => ((lottery 6).shuffle r [4, 5, 6]).1 = [6, 4, 5]) = 1 / 6 ∧
    Probability 6 1 (fun r => ((lottery 6).genBool r (1 / 3)).1 = true) = 1 / 3 := by
  obtain ⟨h1, -, h2, h3⟩ := C102_fair 6 (by decide)
  refine ⟨(h1 _ _ _ (by decide) (by decide) (by decide) (by decide)).trans (by norm_num),
    (h2 [4, 5, 6] [6, 4, 5] (by decide) (by decide)
      (fun d h1 h2 => (by decide : ∀ d < 4, 0 < d → d ∣ 6) d (Nat.lt_succ_of_le h2) h1)).trans
      (by norm_num [Nat.factorial]), ?_⟩
  have h4 := h3 2 (by decide)
  have e : ((2 : ℕ) : ℚ) / ((6 : ℕ) : ℚ) = 1 / 3 := by norm_num
  rw [e] at h4
  exact h4

/-- C102: in a simulation with `Random`, with quorum sets of `size` validators and at least as many initial nodes, the
network in which each node `x` trusts `V x` comes up with the probability that results if each initial node chooses
`size - 1` of the other initial nodes, and each node that is added later `size - 1` of the nodes that are already
there, and all choices are independent and all sets are equally likely. -/
theorem C102_random (L : ℕ) (hL : 0 < L) (i g size N : ℕ) (hsize : 2 ≤ size) (hi : size ≤ i)
    (hd : ∀ d, 0 < d → d ≤ i + g → d ∣ L) (hN : (i + g) * (i + g + size) ≤ N)
    (V : NodeId → Finset NodeId) (hV : ∀ x < i + g, CanTrust size i (i + g) x (V x)) (rnd : ℚ → ℚ) :
    (∀ r, QscSimulator.main (lottery L) rnd ⟨i, g, .random size⟩ r =
      (QscSimulator.simulate (Qsc.random (lottery L) size none []) i g r).map Fbas.toJson) ∧
    Probability L N (fun r => ∃ f, QscSimulator.simulate (Qsc.random (lottery L) size none []) i g r = .ok f ∧
      ∀ x < i + g, ∃ q, HasQSet f x q ∧ q.validators.Nodup ∧ q.validators.toFinset = V x) =
      (1 / ((i - 1).choose (size - 1) : ℕ) : ℚ) ^ i *
        ∏ j ∈ Finset.range g, 1 / (((i + j).choose (size - 1) : ℕ) : ℚ) := by
  refine ⟨fun r => ?_, simulate_probability hL hsize hi hd hN hV⟩
  have hp : QscSimulator.parseQscConfig (lottery L) rnd (.random size) =
    .ok (Qsc.random (lottery L) size none [], 0) := rfl
  obtain ⟨-, h2⟩ := main_simulates (args := ⟨i, g, .random size⟩) hp r
  have hi' : initialSize ⟨i, g, .random size⟩ 0 = i := by
    unfold initialSize
    split
    · rename_i h; exact h.1.symm
    · rfl
  rw [hi'] at h2
  exact h2

/-- Three initial nodes and a fourth one, each trusting one other node: each of the 24 networks, such as the cycle of the
first three nodes with the last one trusting node 1, comes up with probability 1/24. -/
example : Probability 12 24 (fun r => ∃ f, QscSimulator.simulate (Qsc.random (lottery 12) 2 none []) 3 1 r = .ok f ∧
      ∀ x < 3 + 1, ∃ q, HasQSet f x q ∧ q.validators.Nodup ∧
        q.validators.toFinset = ([{0, 1}, {1, 2}, {2, 0}, {3, 1}] : List (Finset ℕ)).getD x ∅) = 1 / 24 := by
  refine ((C102_random 12 (by decide) 3 1 2 24 (by decide) (by decide)
    (fun d h1 h2 => (by decide : ∀ d < 5, 0 < d → d ∣ 12) d (Nat.lt_succ_of_le h2) h1) (by decide)
    (fun x => ([{0, 1}, {1, 2}, {2, 0}, {3, 1}] : List (Finset ℕ)).getD x ∅) ?_ id).2).trans ?_
  · have h : ∀ x < 4, x ∈ ([{0, 1}, {1, 2}, {2, 0}, {3, 1}] : List (Finset ℕ)).getD x ∅ ∧
        (([{0, 1}, {1, 2}, {2, 0}, {3, 1}] : List (Finset ℕ)).getD x ∅).card = 2 ∧
        ∀ v ∈ ([{0, 1}, {1, 2}, {2, 0}, {3, 1}] : List (Finset ℕ)).getD x ∅, v < max (x + 1) 3 := by decide
    exact fun x hx => ⟨(h x hx).1, (h x hx).2.1, (h x hx).2.2⟩
  · rw [Finset.prod_range_one]
    norm_num [Nat.choose]

/-- C102: with weights, as for `FameWeightedRandom`, a node without validators chooses one node after the other, and
each candidate that is left with the probability that its weight has among them. -/
theorem C102_weighted (L : ℕ) (hL : 0 < L) (size : ℕ) (t : Option ℕ) (w : List ℕ) (f : Fbas) (x : NodeId)
    (q : QuorumSet) (hsize : 2 ≤ size) (hn : size ≤ f.nodes.length) (hx : HasQSet f x q) (hq : q.validators = [])
    (hd : ∀ d, 0 < d → d ≤ (((List.range f.nodes.length).erase x).map (fun y => w.getD y 1)).sum → d ∣ L)
    (js : List NodeId) (hj : js.Nodup) (hjs : ∀ j ∈ js, j < f.nodes.length ∧ j ≠ x) (hlen : js.length = size - 1) :
    Probability L (size - 1) (fun r => ∃ c f' s', Qsc.random (lottery L) size t w x (f, r) = .ok (c, f', s') ∧
      ∃ q', HasQSet f' x q' ∧ q'.validators = x :: js) =
      InTurn (fun y => w.getD y 1) ((List.range f.nodes.length).erase x) js :=
  random_weighted hL hsize hn hx hq hd hj hjs hlen

/-- Node 1 of four nodes chooses two others, with weights 3, 2 and 1: it chooses node 0 and then node 3 with probability
3/6 · 1/3. -/
example : Probability 60 2 (fun r => ∃ c f' s', Qsc.random (lottery 60) 3 none [3, 7, 2, 1] 1
      (Ref.mkFbas [.empty, .empty, .empty, .empty], r) = .ok (c, f', s') ∧
      ∃ q', HasQSet f' 1 q' ∧ q'.validators = [1, 0, 3]) = 1 / 6 := by
  refine (C102_weighted 60 (by decide) 3 none [3, 7, 2, 1] (Ref.mkFbas [.empty, .empty, .empty, .empty]) 1 .empty (by decide) (by decide)
    ⟨_, rfl, rfl⟩ rfl
    (fun d h1 h2 => (by decide : ∀ d < 7, 0 < d → d ∣ 60) d (Nat.lt_succ_of_le h2) h1) [0, 3] (by decide) (by decide) rfl).trans ?_
  have h : ((List.range 4).erase 1) = [0, 2, 3] := by decide
  show InTurn _ ((List.range 4).erase 1) [0, 3] = _
  rw [h]
  norm_num [InTurn]

/-- C102: `new_random_scale_free` generates a graph with the probability of preferential attachment: each node that is
added chooses one earlier node after the other, and each of those that are left with the probability that the number
of its links before has among them. -/
theorem C102_scale_free (L : ℕ) (hL : 0 < L) (n m0 m N : ℕ) (h2 : 2 ≤ m0) (hn : m0 ≤ n) (hm : 1 ≤ m) (hmm : m ≤ m0)
    (hd : ∀ d, 0 < d → d ≤ n * n → d ∣ L) (hN : (n - m0) * m ≤ N) (g : Graph)
    (hg : ∃ (R : Rand) (s s' : R.State), Graph.newRandomScaleFree R s n m0 m = .ok (g, s')) :
    Probability L N (fun r => ∃ r', Graph.newRandomScaleFree (lottery L) r n m0 m = .ok (g, r')) =
      ∏ x ∈ Finset.Ico m0 n, InTurn (fun y => ((g.outlinks.getD y []).filter (fun z => decide (z < x))).length)
        (List.range x) ((g.outlinks.getD x []).filter (fun z => decide (z < x))) := by
  obtain ⟨R, s, s', hg⟩ := hg
  obtain ⟨o, h1, h3⟩ := SfInv.init (m := m) h2 hn
  obtain ⟨M, rfl⟩ : ∃ M, N = (n - m0) * m + M := ⟨N - (n - m0) * m, by omega⟩
  have h4 := sfLoop_probability hL (M := M) (d := n - m0) hm hmm hd (Nat.le_refl m0) (by omega) h3
    ((scaleFree_iff h2 hn hm hmm h1).1 hg)
  refine Eq.trans ?_ h4
  exact probability_congr (fun r _ _ => exists_congr (fun r' => scaleFree_iff h2 hn hm hmm h1))

/-- The star with four nodes: the second node that is added chooses node 0, which has two of the four link ends. -/
example : Probability 720720 2 (fun r => ∃ r', Graph.newRandomScaleFree (lottery 720720) r 4 2 1 =
      .ok (⟨[[1, 2, 3], [0], [0], [0]]⟩, r')) = 1 / 4 := by
  refine (C102_scale_free 720720 (by decide) 4 2 1 2 (by decide) (by decide) (by decide) (by decide)
    (fun d h1 h2 => (by decide : ∀ d < 17, 0 < d → d ∣ 720720) d (Nat.lt_succ_of_le h2) h1) (by decide)
    ⟨[[1, 2, 3], [0], [0], [0]]⟩ ⟨lottery 12, ([0, 0] : List ℕ), ([] : List ℕ), rfl⟩).trans ?_
  norm_num [InTurn, Finset.prod_Ico_succ_top, List.range_succ]

#print axioms C102_fair
#print axioms C102_random
#print axioms C102_weighted
#print axioms C102_scale_free

end FA.Props
