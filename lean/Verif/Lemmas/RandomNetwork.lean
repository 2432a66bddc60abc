import Mathlib.Algebra.BigOperators.Group.Finset.Basic
import Verif.Lemmas.RandomSets
import Verif.Lemmas.RandomRange

/-!
# Probabilities of networks with random quorum sets
-/

namespace FA
open Spec Simulator Props

attribute [local irreducible] Probability

/-! ### What stays -/

section
variable {R : Rand} {qsc : Qsc R} {P : Fbas → Prop}

theorem roundLoop_keeps (hP : ∀ y f s c f' s', qsc y (f, s) = .ok (c, f', s') → P f → P f') {order : List NodeId}
    {c c' : ChangeEffect} {sim sim' : Simulator R} (h : roundLoop qsc order (c, sim) = .ok (c', sim'))
    (h0 : P sim.fbas) : P sim'.fbas := by
  induction order generalizing c sim with
  | nil =>
    rw [roundLoop] at h
    obtain ⟨-, rfl⟩ := Prod.mk.inj (Except.ok.inj h)
    exact h0
  | cons y order ih =>
    rw [roundLoop] at h
    cases hq : qsc y (sim.fbas, sim.rng) with
    | error e => rw [hq] at h; cases h
    | ok p =>
      obtain ⟨d, f, s⟩ := p
      rw [hq] at h
      exact ih h (hP _ _ _ _ _ _ hq h0)

theorem reevaluationLoop_keeps (hP : ∀ y f s c f' s', qsc y (f, s) = .ok (c, f', s') → P f → P f') {n : ℕ}
    {stable : Bool} {next k : ℕ} {order : List NodeId} {sim sim' : Simulator R}
    (h : reevaluationLoop qsc n stable next order sim = .ok (k, sim')) (h0 : P sim.fbas) : P sim'.fbas := by
  induction n generalizing stable next order sim with
  | zero =>
    rw [reevaluationLoop] at h
    obtain ⟨-, rfl⟩ := Prod.mk.inj (Except.ok.inj h)
    exact h0
  | succ n ih =>
    rw [reevaluationLoop] at h
    split at h
    · obtain ⟨-, rfl⟩ := Prod.mk.inj (Except.ok.inj h)
      exact h0
    · dsimp only at h
      split at h
      · cases h
      · rename_i hr
        exact ih h (roundLoop_keeps hP hr h0)

theorem reevaluation_keeps (hP : ∀ y f s c f' s', qsc y (f, s) = .ok (c, f', s') → P f → P f') {n k : ℕ}
    {sim sim' : Simulator R} (h : simulateGlobalReevaluation qsc n sim = .ok (k, sim')) (h0 : P sim.fbas) :
    P sim'.fbas := by
  unfold simulateGlobalReevaluation at h
  dsimp only at h
  split at h
  · cases h
  · rename_i hr
    obtain ⟨-, rfl⟩ := Prod.mk.inj (Except.ok.inj h)
    have h2 := reevaluationLoop_keeps hP hr h0
    exact h2

theorem growth_keeps (hP : ∀ y f s c f' s', qsc y (f, s) = .ok (c, f', s') → P f → P f')
    (hA : ∀ f x f', f.addGenericNode QuorumSet.empty = .ok (x, f') → P f → P f') {n : ℕ}
    {sim sim' : Simulator R} (h : simulateGrowth qsc n sim = .ok sim') (h0 : P sim.fbas) :
    P sim'.fbas := by
  induction n generalizing sim with
  | zero =>
    rw [simulateGrowth] at h
    obtain rfl := Except.ok.inj h
    exact h0
  | succ n ih =>
    rw [simulateGrowth] at h
    split at h
    · cases h
    · rename_i h1
      split at h
      · cases h
      · rename_i h2
        dsimp only at h
        split at h
        · cases h
        · rename_i h3
          exact ih h (reevaluation_keeps hP h3 (hP _ _ _ _ _ _ h2 (hA _ _ _ h1 h0)))

end

theorem random_keeps {R : Rand} {size : ℕ} {t : Option ℕ} {w : List ℕ} {x : NodeId} {q : QuorumSet}
    (hne : q.validators ≠ []) (hge : size ≤ q.validators.length) (y : NodeId) (f : Fbas) (s : R.State)
    (c : ChangeEffect) (f' : Fbas) (s' : R.State) (h : Qsc.random R size t w y (f, s) = .ok (c, f', s'))
    (hq : HasQSet f x q) : HasQSet f' x q := by
  by_cases hy : y = x
  · subst hy
    rw [random_full hq hne hge] at h
    obtain ⟨-, h1⟩ := Prod.mk.inj (Except.ok.inj h)
    obtain ⟨rfl, -⟩ := Prod.mk.inj h1
    exact hq
  · exact random_others hy h hq

theorem addGenericNode_keeps {x : NodeId} {q q0 : QuorumSet} (f : Fbas) (y : NodeId) (f' : Fbas)
    (h : f.addGenericNode q0 = .ok (y, f')) (hq : HasQSet f x q) : HasQSet f' x q := by
  unfold Fbas.addGenericNode Fbas.addNode at h
  dsimp only at h
  split at h
  · cases h
  · obtain ⟨-, rfl⟩ := Prod.mk.inj (Except.ok.inj h)
    obtain ⟨node, h1, h2⟩ := hq
    exact ⟨node, by rw [List.getElem?_append_left (List.getElem?_eq_some_iff.1 h1).1]; exact h1, h2⟩

/-! ### One visit -/

/-- Node `x` has different validators, which are `T`. -/
def Chose (f : Fbas) (x : NodeId) (T : Finset ℕ) : Prop :=
  ∃ q, HasQSet f x q ∧ q.validators.Nodup ∧ q.validators.toFinset = T

theorem random_iff {R : Rand} {size : ℕ} {t : Option ℕ} {w : List ℕ} {f f' : Fbas} {x : NodeId} {q : QuorumSet}
    (hsize : 2 ≤ size) (hn : size ≤ f.nodes.length) (hx : HasQSet f x q) (hq : q.validators = []) {r s' : R.State}
    {c : ChangeEffect} : Qsc.random R size t w x (f, r) = .ok (c, f', s') ↔
      ∃ vs, Qsc.randomLoop R w (size - 1) ((rangeFT 0 f.nodes.length).filter (fun y => decide (y ∉ [x]))) [x] r =
          .ok (vs, s') ∧ c = .change ∧
        Qsc.setQuorumSet f x { q with threshold := t.getD (Qsc.calculate67pThreshold (min size f.nodes.length)),
                                      validators := vs } = .ok f' := by
  obtain ⟨hxn, hex⟩ := existing_eq hx
  have hmin : min size f.nodes.length - 1 = size - 1 := by omega
  unfold Qsc.random
  dsimp only
  rw [hex]
  dsimp only
  rw [if_pos hq, if_pos (show [x].length < size from hsize), List.length_singleton, hmin]
  cases hr : Qsc.randomLoop R w (size - 1) ((rangeFT 0 f.nodes.length).filter (fun y => decide (y ∉ [x]))) [x] r with
  | error e =>
    dsimp only
    constructor
    · intro h; cases h
    · rintro ⟨vs, h, -⟩; cases h
  | ok pr =>
    obtain ⟨vs, s1⟩ := pr
    dsimp only
    cases hs : Qsc.setQuorumSet f x { q with
        threshold := t.getD (Qsc.calculate67pThreshold (min size f.nodes.length)), validators := vs } with
    | error e =>
      dsimp only
      constructor
      · intro h; cases h
      · rintro ⟨vs', h, -, h2⟩
        obtain ⟨rfl, -⟩ := Prod.mk.inj (Except.ok.inj h)
        rw [hs] at h2; cases h2
    | ok f1 =>
      dsimp only
      constructor
      · intro h
        obtain ⟨rfl, h2⟩ := Prod.mk.inj (Except.ok.inj h)
        obtain ⟨rfl, rfl⟩ := Prod.mk.inj h2
        exact ⟨vs, rfl, rfl, hs⟩
      · rintro ⟨vs', h, rfl, h2⟩
        obtain ⟨rfl, rfl⟩ := Prod.mk.inj (Except.ok.inj h)
        rw [hs] at h2
        obtain rfl := Except.ok.inj h2
        rfl

theorem random_weighted {L : ℕ} (hL : 0 < L) {size : ℕ} {t : Option ℕ} {w : List ℕ} {f : Fbas} {x : NodeId}
    {q : QuorumSet} (hsize : 2 ≤ size) (hn : size ≤ f.nodes.length) (hx : HasQSet f x q) (hq : q.validators = [])
    (hd : ∀ d, 0 < d → d ≤ (((List.range f.nodes.length).erase x).map (fun y => w.getD y 1)).sum → d ∣ L)
    {js : List ℕ} (hj : js.Nodup) (hjs : ∀ j ∈ js, j < f.nodes.length ∧ j ≠ x) (hlen : js.length = size - 1) :
    Probability L (size - 1) (fun r => ∃ c f' s', Qsc.random (lottery L) size t w x (f, r) = .ok (c, f', s') ∧
      ∃ q', HasQSet f' x q' ∧ q'.validators = x :: js) =
      InTurn (fun y => w.getD y 1) ((List.range f.nodes.length).erase x) js := by
  obtain ⟨hxn, -⟩ := existing_eq hx
  have hav : (rangeFT 0 f.nodes.length).filter (fun y => decide (y ∉ [x])) = (List.range f.nodes.length).erase x := by
    rw [rangeFT_zero, List.nodup_range.erase_eq_filter]
    refine List.filter_congr (fun y _ => ?_)
    rw [Bool.eq_iff_iff]; simp
  rw [← hlen, ← randomLoop_inTurn hL (vs := [x]) (List.nodup_range.erase x) hd hj
    (fun j h => (List.mem_erase_of_ne (hjs j h).2).2 (List.mem_range.2 (hjs j h).1))]
  refine probability_congr (fun r _ _ => ?_)
  constructor
  · rintro ⟨c, f', s', h1, q', h2, h3⟩
    obtain ⟨vs, h4, -, h5⟩ := (random_iff hsize hn hx hq).1 h1
    rw [hav, ← hlen] at h4
    obtain ⟨f1, g1, -, g3⟩ := swap_spec hxn { q with
      threshold := t.getD (Qsc.calculate67pThreshold (min size f.nodes.length)), validators := vs }
    rw [g1] at h5
    obtain rfl := Except.ok.inj h5
    have h6 := (getQuorumSet_iff.2 h2).symm.trans ((g3 x).trans (if_pos rfl))
    rw [Option.some.inj h6] at h3
    dsimp only at h3
    rw [h3] at h4
    exact ⟨s', h4⟩
  · rintro ⟨s', h1⟩
    obtain ⟨f1, g1, -, g3⟩ := swap_spec hxn { q with
      threshold := t.getD (Qsc.calculate67pThreshold (min size f.nodes.length)), validators := [x] ++ js }
    exact ⟨.change, f1, s', (random_iff hsize hn hx hq).2 ⟨_, by rw [hav, ← hlen]; exact h1, rfl, g1⟩, _,
      getQuorumSet_iff.1 ((g3 x).trans (if_pos rfl)), rfl⟩

theorem random_visit {L : ℕ} (hL : 0 < L) {size M : ℕ} {t : Option ℕ} {f : Fbas} {x : NodeId} {q : QuorumSet}
    (hsize : 2 ≤ size) (hn : size ≤ f.nodes.length) (hd : ∀ d, 0 < d → d ≤ f.nodes.length → d ∣ L)
    (hx : HasQSet f x q) (hq : q.validators = []) {T : Finset ℕ} (hxT : x ∈ T)
    (hT : ∀ y ∈ T, y < f.nodes.length) (hc : T.card = size)
    {K : ChangeEffect → Fbas → List ℕ → Prop} {p : ℚ}
    (h1 : ∀ f', SameNames f f' → Chose f' x T → (∀ y, y ≠ x → f'.getQuorumSet y = f.getQuorumSet y) →
      Probability L M (K .change f') = p)
    (h0 : ∀ c f' s q', HasQSet f' x q' → q'.validators.length = size → q'.validators.toFinset ≠ T → ¬ K c f' s) :
    Probability L (size - 1 + M) (fun r => ∃ c f' s', Qsc.random (lottery L) size t [] x (f, r) =
      .ok (c, f', s') ∧ K c f' s') = p / ((f.nodes.length - 1).choose (size - 1) : ℕ) := by
  obtain ⟨hxn, hex⟩ := existing_eq hx
  set av := (rangeFT 0 f.nodes.length).filter (fun y => decide (y ∉ [x])) with hav
  have havn : av.Nodup := (nodup_rangeFT _ _).filter _
  have hmem : ∀ y : ℕ, y ∈ av ↔ y < f.nodes.length ∧ y ≠ x := by
    intro y
    rw [hav, List.mem_filter, mem_rangeFT]
    simp
  have hlen : av.length = f.nodes.length - 1 := by
    rw [← List.toFinset_card_of_nodup havn]
    have : av.toFinset = (Finset.range f.nodes.length).erase x := by
      ext y
      rw [List.mem_toFinset, hmem, Finset.mem_erase, Finset.mem_range]
      exact And.comm
    rw [this, Finset.card_erase_of_mem (Finset.mem_range.2 hxn), Finset.card_range]
  have hloop : ∀ (r : List ℕ) c f' s', Qsc.random (lottery L) size t [] x (f, r) = .ok (c, f', s') ↔
      ∃ vs, Qsc.randomLoop (lottery L) [] (size - 1) av [x] r = .ok (vs, s') ∧ c = .change ∧
        Qsc.setQuorumSet f x { q with threshold := t.getD (Qsc.calculate67pThreshold (min size f.nodes.length)),
                                      validators := vs } = .ok f' :=
    fun r c f' s' => random_iff hsize hn hx hq
  rw [← hlen]
  rw [← randomLoop_uniform hL (vs := [x]) (l := av) (k := size - 1) (T := T.erase x) (N := M) (p := p)
    (K := fun vs s => ∃ f', Qsc.setQuorumSet f x { q with
      threshold := t.getD (Qsc.calculate67pThreshold (min size f.nodes.length)), validators := vs } = .ok f' ∧
        K .change f' s) havn
    (fun d h2 h3 => hd d h2 (by omega))
    (fun y hy => (hmem y).2 ⟨hT y (Finset.mem_erase.1 hy).2, (Finset.mem_erase.1 hy).1⟩)
    (by rw [Finset.card_erase_of_mem hxT, hc])]
  · refine probability_congr (fun r _ _ => ?_)
    constructor
    · rintro ⟨c, f', s', h2, h3⟩
      obtain ⟨vs, h4, rfl, h5⟩ := (hloop r c f' s').1 h2
      obtain ⟨new, rfl, h6, h7, h8⟩ := randomLoop_ok havn h4
      refine ⟨new, s', h4, ?_, f', h5, h3⟩
      obtain ⟨f1, g1, -, g3⟩ := swap_spec hxn { q with
        threshold := t.getD (Qsc.calculate67pThreshold (min size f.nodes.length)), validators := [x] ++ new }
      rw [g1] at h5
      obtain rfl := Except.ok.inj h5
      by_contra hne
      refine h0 _ _ _ _ (getQuorumSet_iff.1 ((g3 x).trans (if_pos rfl))) ?_ ?_ h3
      · show ([x] ++ new).length = size
        rw [List.length_append, List.length_singleton, h7]; omega
      · intro he
        apply hne
        rw [← he]
        show new.toFinset = (x :: new).toFinset.erase x
        rw [List.toFinset_cons, Finset.erase_insert]
        intro h
        exact ((hmem x).1 (h8 x (List.mem_toFinset.1 h)).1).2 rfl
    · rintro ⟨new, s', h2, -, f', h4, h5⟩
      exact ⟨.change, f', s', (hloop r _ _ _).2 ⟨_, h2, rfl, h4⟩, h5⟩
  · intro new hnd hnew
    obtain ⟨f1, g1, g2, g3⟩ := swap_spec hxn { q with
      threshold := t.getD (Qsc.calculate67pThreshold (min size f.nodes.length)), validators := [x] ++ new }
    rw [← h1 f1 g2 ⟨_, getQuorumSet_iff.1 ((g3 x).trans (if_pos rfl)), ?_, ?_⟩ (fun y hy => by rw [g3, if_neg hy])]
    · refine probability_congr (fun r _ _ => ?_)
      constructor
      · rintro ⟨f', h2, h3⟩
        rw [g1] at h2
        obtain rfl := Except.ok.inj h2
        exact h3
      · intro h; exact ⟨f1, g1, h⟩
    · show (x :: new).Nodup
      refine List.nodup_cons.2 ⟨fun h => ?_, hnd⟩
      have := List.mem_toFinset.2 h
      rw [hnew] at this
      exact (Finset.mem_erase.1 this).1 rfl
    · show (x :: new).toFinset = T
      rw [List.toFinset_cons, hnew, Finset.insert_erase hxT]

/-! ### Shuffling -/

theorem shuffle_probability {L M : ℕ} (hL : 0 < L) {k : ℕ} {l : List ℕ} (hk : l.length = k)
    {P : List ℕ → List ℕ → Prop} {p : ℚ} (h : ∀ σ : List ℕ, σ.Perm l → Probability L M (P σ) = p) :
    Probability L (k + M) (fun r => P (orderBy k r l).1 (orderBy k r l).2) = p := by
  induction k generalizing l P with
  | zero =>
    rw [Nat.zero_add]
    exact h l (List.Perm.refl _)
  | succ k ih =>
    rw [Nat.add_right_comm, probability_succ]
    have hterm : ∀ a ∈ Finset.range L, Probability L (k + M)
        (fun r => P (orderBy (k + 1) (a :: r) l).1 (orderBy (k + 1) (a :: r) l).2) = p := by
      intro a _
      cases hc : candidateAt (fun _ => 1) (a % l.length) l with
      | none =>
        exfalso
        refine candidateAt_lt (w := fun _ => 1) (l := l) (r := a % l.length) ?_ hc
        have h1 : (l.map (fun _ => 1)).sum = l.length := by simp
        rw [h1]
        exact Nat.mod_lt _ (by omega)
      | some x =>
        have hx : x ∈ l := (candidateAt_some hc).1
        have e : ∀ r : List ℕ, orderBy (k + 1) (a :: r) l =
            (x :: (orderBy k r (l.erase x)).1, (orderBy k r (l.erase x)).2) := by
          intro r
          rw [orderBy, List.headD_cons, hc]
          rfl
        rw [← ih (l := l.erase x) (P := fun σ => P (x :: σ))
          (by rw [List.length_erase_of_mem hx, hk, Nat.add_sub_cancel])
          (fun σ hσ => h _ ((hσ.cons x).trans (List.perm_cons_erase hx).symm))]
        exact probability_congr (fun r _ _ => by rw [e])
    rw [Finset.sum_congr rfl hterm, Finset.sum_const, Finset.card_range, nsmul_eq_mul,
      mul_div_cancel_left₀ _ (show (L : ℚ) ≠ 0 by exact_mod_cast hL.ne')]

/-! ### One round -/

theorem roundLoop_cons {R : Rand} {qsc : Qsc R} {x : NodeId} {order : List NodeId} {c c' : ChangeEffect}
    {sim sim' : Simulator R} : roundLoop qsc (x :: order) (c, sim) = .ok (c', sim') ↔
      ∃ d f s, qsc x (sim.fbas, sim.rng) = .ok (d, f, s) ∧ roundLoop qsc order
        (c.update d, ⟨f, sim.events ++ [.quorumSetChange x d], s⟩) = .ok (c', sim') := by
  rw [roundLoop]
  cases hq : qsc x (sim.fbas, sim.rng) with
  | error e =>
    dsimp only
    constructor
    · intro h; cases h
    · rintro ⟨d, f, s, h, -⟩; cases h
  | ok pr =>
    obtain ⟨d, f, s⟩ := pr
    dsimp only
    constructor
    · intro h; exact ⟨d, f, s, rfl, h⟩
    · rintro ⟨d', f', s', h, h'⟩
      obtain ⟨rfl, h1⟩ := Prod.mk.inj (Except.ok.inj h)
      obtain ⟨rfl, rfl⟩ := Prod.mk.inj h1
      exact h'

theorem Chose.keep {f f' : Fbas} {x : NodeId} {T : Finset ℕ} (h : Chose f x T)
    (he : f'.getQuorumSet x = f.getQuorumSet x) : Chose f' x T := by
  obtain ⟨q, h1, h2⟩ := h
  exact ⟨q, getQuorumSet_iff.1 (he.trans (getQuorumSet_iff.2 h1)), h2⟩

theorem round_probability {L : ℕ} (hL : 0 < L) {size M : ℕ} {t : Option ℕ} {f : Fbas} {order : List ℕ}
    (hsize : 2 ≤ size) (hn : size ≤ f.nodes.length) (hd : ∀ d, 0 < d → d ≤ f.nodes.length → d ∣ L)
    (ho : order.Nodup) (he : ∀ x ∈ order, HasQSet f x QuorumSet.empty)
    {S : NodeId → Finset ℕ} (hself : ∀ x ∈ order, x ∈ S x)
    (hS : ∀ x ∈ order, ∀ y ∈ S x, y < f.nodes.length) (hc : ∀ x ∈ order, (S x).card = size)
    {c : ChangeEffect} {ev : List Event}
    {K : ChangeEffect → Fbas → List Event → List ℕ → Prop} {p : ℚ}
    (h1 : ∀ f' ev', SameNames f f' → (∀ x ∈ order, Chose f' x (S x)) →
      (∀ y, y ∉ order → f'.getQuorumSet y = f.getQuorumSet y) →
      Probability L M (K (if order = [] then c else .change) f' ev') = p)
    (h0 : ∀ x ∈ order, ∀ c f' ev' s q', HasQSet f' x q' → q'.validators.length = size →
      q'.validators.toFinset ≠ S x → ¬ K c f' ev' s) :
    Probability L (order.length * (size - 1) + M) (fun r => ∃ c' sim', roundLoop
      (Qsc.random (lottery L) size t []) order (c, ⟨f, ev, r⟩) = .ok (c', sim') ∧
        K c' sim'.fbas sim'.events sim'.rng) =
      p / (((f.nodes.length - 1).choose (size - 1) : ℕ) : ℚ) ^ order.length := by
  induction order generalizing f c ev p with
  | nil =>
    rw [List.length_nil, Nat.zero_mul, Nat.zero_add, pow_zero, div_one]
    rw [← h1 f ev ⟨rfl, rfl⟩ (fun x hx => by cases hx) (fun _ _ => rfl), if_pos rfl]
    refine probability_congr (fun r _ _ => ?_)
    constructor
    · rintro ⟨c', sim', h, h'⟩
      obtain ⟨rfl, rfl⟩ := Prod.mk.inj (Except.ok.inj h)
      exact h'
    · intro h; exact ⟨c, ⟨f, ev, r⟩, rfl, h⟩
  | cons x order ih =>
    obtain ⟨hx, ho'⟩ := List.nodup_cons.1 ho
    rw [List.length_cons, Nat.succ_mul, Nat.add_comm (order.length * (size - 1)), Nat.add_assoc, pow_succ,
      ← div_div]
    rw [← random_visit hL (t := t) (M := order.length * (size - 1) + M) hsize hn hd
      (he x List.mem_cons_self) rfl (hself x List.mem_cons_self) (hS x List.mem_cons_self) (hc x List.mem_cons_self)
      (K := fun d f1 s => ∃ c' sim', roundLoop (Qsc.random (lottery L) size t []) order
        (c.update d, ⟨f1, ev ++ [.quorumSetChange x d], s⟩) = .ok (c', sim') ∧
          K c' sim'.fbas sim'.events sim'.rng)]
    · refine probability_congr (fun r _ _ => ?_)
      constructor
      · rintro ⟨c', sim', h, h'⟩
        obtain ⟨d, f1, s1, h2, h3⟩ := roundLoop_cons.1 h
        exact ⟨d, f1, s1, h2, c', sim', h3, h'⟩
      · rintro ⟨d, f1, s1, h2, c', sim', h3, h'⟩
        exact ⟨c', sim', roundLoop_cons.2 ⟨d, f1, s1, h2, h3⟩, h'⟩
    · intro f1 hf1 hch hoth
      have hl : f1.nodes.length = f.nodes.length := hf1.length
      rw [← hl]
      refine ih (by rw [hl]; exact hn) (by rw [hl]; exact hd) ho' (fun y hy => ?_)
        (fun y hy => hself y (List.mem_cons_of_mem _ hy))
        (fun y hy => by rw [hl]; exact hS y (List.mem_cons_of_mem _ hy))
        (fun y hy => hc y (List.mem_cons_of_mem _ hy)) (fun f2 ev2 hf2 hch2 hoth2 => ?_)
        (fun y hy => h0 y (List.mem_cons_of_mem _ hy))
      · rw [← getQuorumSet_iff, hoth y (fun h => hx (by rw [← h]; exact hy)), getQuorumSet_iff]
        exact he y (List.mem_cons_of_mem _ hy)
      · have h2 := h1 f2 ev2 (hf1.trans hf2)
          (fun y hy => by
            rcases List.mem_cons.1 hy with rfl | hy
            · exact hch.keep (hoth2 y hx)
            · exact hch2 y hy)
          (fun y hy => by
            rw [hoth2 y (fun h => hy (List.mem_cons_of_mem _ h)), hoth y (fun h => hy (by rw [h]; simp))])
        rw [if_neg (by simp)] at h2
        rw [← h2]
        congr 2
        split
        · cases c <;> rfl
        · rfl
    · intro d f1 s1 q' hq' hlen hne
      rintro ⟨c', sim', h3, h'⟩
      refine h0 x List.mem_cons_self c' _ _ _ q' ?_ hlen hne h'
      exact roundLoop_keeps (P := fun f => HasQSet f x q')
        (random_keeps (fun h => by rw [h] at hlen; simp at hlen; omega) (Nat.le_of_eq hlen.symm)) h3 hq'

/-! ### Rounds without changes -/

/-- All nodes have enough validators. -/
def Sized (size : ℕ) (f : Fbas) : Prop :=
  ∀ x < f.nodes.length, ∃ q, HasQSet f x q ∧ q.validators ≠ [] ∧ size ≤ q.validators.length

section
variable {R : Rand} {size : ℕ} {t : Option ℕ} {w : List ℕ} {f : Fbas}

theorem round_sized (hf : Sized size f) (order : List ℕ) (ho : ∀ x ∈ order, x < f.nodes.length) (ev : List Event) :
    ∃ ev', ∀ s : R.State, roundLoop (Qsc.random R size t w) order (.noChange, ⟨f, ev, s⟩) =
      .ok (.noChange, ⟨f, ev', s⟩) := by
  induction order generalizing ev with
  | nil => exact ⟨ev, fun s => rfl⟩
  | cons x order ih =>
    obtain ⟨ev', h⟩ := ih (fun y hy => ho y (List.mem_cons_of_mem _ hy)) (ev ++ [.quorumSetChange x .noChange])
    obtain ⟨q, h1, h2, h3⟩ := hf x (ho x List.mem_cons_self)
    exact ⟨ev', fun s => roundLoop_cons.2 ⟨_, _, _, random_full h1 h2 h3, h s⟩⟩

theorem reevaluationLoop_sized (hf : Sized size f) (order : List ℕ) (ho : ∀ x ∈ order, x < f.nodes.length)
    (ev : List Event) (m next : ℕ) :
    ∃ ev' : List ℕ → List Event, ∀ s : R.State,
      reevaluationLoop (Qsc.random R size t w) (m + 1) false next order ⟨f, ev, s⟩ =
        .ok (next + 1, ⟨f, ev' (R.shuffle s order).1, (R.shuffle s order).2⟩) := by
  have h : ∀ σ : List ℕ, ∃ ev', (∀ x ∈ σ, x < f.nodes.length) → ∀ s : R.State,
      simulateGlobalReevaluationRound (Qsc.random R size t w) σ ⟨f, ev, s⟩ = .ok (.noChange, ⟨f, ev', s⟩) := by
    intro σ
    by_cases hσ : ∀ x ∈ σ, x < f.nodes.length
    · obtain ⟨ev', h⟩ := round_sized (R := R) (t := t) (w := w) hf σ hσ (ev ++ [.startGlobalReevaluationRound])
      exact ⟨ev', fun _ => h⟩
    · exact ⟨[], fun h => absurd h hσ⟩
  choose ev' h using h
  refine ⟨ev', fun s => ?_⟩
  rw [reevaluationLoop, if_neg (by simp)]
  dsimp only
  rw [h _ (fun x hx => ho x ((R.shuffle_perm s order).mem_iff.1 hx))]
  dsimp only
  cases m with
  | zero => rfl
  | succ m => rw [reevaluationLoop]; rfl

end

theorem reevaluationLoop_probability {L : ℕ} (hL : 0 < L) {size M : ℕ} {t : Option ℕ} {f : Fbas} (hf : Sized size f)
    {order : List ℕ} (ho : ∀ x ∈ order, x < f.nodes.length) {ev : List Event} {m next : ℕ}
    {K : ℕ → Fbas → List Event → List ℕ → Prop} {p : ℚ}
    (h1 : ∀ k ev', Probability L M (K k f ev') = p) :
    Probability L (order.length + M) (fun r => ∃ k sim', reevaluationLoop (Qsc.random (lottery L) size t []) (m + 1)
      false next order ⟨f, ev, r⟩ = .ok (k, sim') ∧ K k sim'.fbas sim'.events sim'.rng) = p := by
  obtain ⟨ev', h⟩ := reevaluationLoop_sized (R := lottery L) (t := t) (w := []) hf order ho ev m next
  rw [← shuffle_probability hL (l := order) rfl (P := fun σ s => K (next + 1) f (ev' σ) s) (fun σ _ => h1 _ _)]
  refine probability_congr (fun r _ _ => ?_)
  constructor
  · rintro ⟨k, sim', h2, h3⟩
    obtain ⟨rfl, rfl⟩ := Prod.mk.inj (Except.ok.inj ((h r).symm.trans h2))
    exact h3
  · intro h2
    exact ⟨_, _, h r, h2⟩

theorem reevaluation_iff {R : Rand} {qsc : Qsc R} {n k : ℕ} {sim sim' : Simulator R} :
    simulateGlobalReevaluation qsc n sim = .ok (k, sim') ↔ ∃ sim1, reevaluationLoop qsc n false 0
      (rangeFT 0 sim.fbas.nodes.length) ⟨sim.fbas, sim.events ++ [.startGlobalReevaluation], sim.rng⟩ = .ok (k, sim1) ∧
        sim' = ⟨sim1.fbas, sim1.events ++ [.finishGlobalReevaluation k], sim1.rng⟩ := by
  unfold simulateGlobalReevaluation
  dsimp only
  have hreg : sim.registerEvent .startGlobalReevaluation =
    ⟨sim.fbas, sim.events ++ [.startGlobalReevaluation], sim.rng⟩ := rfl
  rw [hreg]
  cases reevaluationLoop qsc n false 0 (rangeFT 0 sim.fbas.nodes.length)
      ⟨sim.fbas, sim.events ++ [.startGlobalReevaluation], sim.rng⟩ with
  | error e =>
    dsimp only
    constructor
    · intro h; cases h
    · rintro ⟨sim1, h, -⟩; cases h
  | ok pr =>
    obtain ⟨k1, sim1⟩ := pr
    dsimp only
    constructor
    · intro h
      obtain ⟨rfl, rfl⟩ := Prod.mk.inj (Except.ok.inj h)
      exact ⟨sim1, rfl, rfl⟩
    · rintro ⟨sim2, h, rfl⟩
      obtain ⟨rfl, rfl⟩ := Prod.mk.inj (Except.ok.inj h)
      rfl

theorem length_rangeFT_zero (n : ℕ) : (rangeFT 0 n).length = n := by
  rw [rangeFT_zero, List.length_range]

/-- The reevaluation after a node was added. -/
theorem stable_probability {L : ℕ} (hL : 0 < L) {size M : ℕ} {t : Option ℕ} {f : Fbas} (hf : Sized size f)
    {ev : List Event} {m : ℕ} {K : Fbas → List Event → List ℕ → Prop} {p : ℚ}
    (h1 : ∀ ev', Probability L M (K f ev') = p) :
    Probability L (f.nodes.length + M) (fun r => ∃ k sim', simulateGlobalReevaluation
      (Qsc.random (lottery L) size t []) (m + 1) ⟨f, ev, r⟩ = .ok (k, sim') ∧
        K sim'.fbas sim'.events sim'.rng) = p := by
  have h := reevaluationLoop_probability hL (t := t) hf (order := rangeFT 0 f.nodes.length)
    (fun x hx => (mem_rangeFT.1 hx).2) (ev := ev ++ [.startGlobalReevaluation]) (m := m) (next := 0) (M := M)
    (K := fun k f ev s => K f (ev ++ [.finishGlobalReevaluation k]) s) (p := p) (fun k ev' => by
      have h2 := h1 (ev' ++ [.finishGlobalReevaluation k])
      exact h2)
  rw [length_rangeFT_zero] at h
  rw [← h]
  refine probability_congr (fun r _ _ => ?_)
  constructor
  · rintro ⟨k, sim', h2, h3⟩
    obtain ⟨sim1, h4, rfl⟩ := reevaluation_iff.1 h2
    exact ⟨k, sim1, h4, h3⟩
  · rintro ⟨k, sim1, h4, h3⟩
    exact ⟨k, _, reevaluation_iff.2 ⟨sim1, h4, rfl⟩, h3⟩

theorem Chose.sized {f : Fbas} {x : NodeId} {T : Finset ℕ} (h : Chose f x T) {size : ℕ} (hs : 2 ≤ size)
    (hT : T.card = size) : ∃ q, HasQSet f x q ∧ q.validators ≠ [] ∧ size ≤ q.validators.length := by
  obtain ⟨q, h1, h2, h3⟩ := h
  have h4 : q.validators.length = size := by rw [← List.toFinset_card_of_nodup h2, h3, hT]
  refine ⟨q, h1, fun h => ?_, Nat.le_of_eq h4.symm⟩
  rw [h, List.length_nil] at h4
  omega

theorem reevaluationLoop_succ {R : Rand} {qsc : Qsc R} {n next k : ℕ} {order : List ℕ} {sim sim' : Simulator R} :
    reevaluationLoop qsc (n + 1) false next order sim = .ok (k, sim') ↔ ∃ c1 sim1, roundLoop qsc
        (R.shuffle sim.rng order).1 (.noChange, ⟨sim.fbas, sim.events ++ [.startGlobalReevaluationRound],
          (R.shuffle sim.rng order).2⟩) = .ok (c1, sim1) ∧
      reevaluationLoop qsc n (!c1.hadChange) (next + 1) (R.shuffle sim.rng order).1 sim1 = .ok (k, sim') := by
  rw [reevaluationLoop, if_neg (by simp)]
  dsimp only
  have hreg : simulateGlobalReevaluationRound qsc (R.shuffle sim.rng order).1
      { sim with rng := (R.shuffle sim.rng order).2 } = roundLoop qsc
        (R.shuffle sim.rng order).1 (.noChange, ⟨sim.fbas, sim.events ++ [.startGlobalReevaluationRound],
          (R.shuffle sim.rng order).2⟩) := rfl
  rw [hreg]
  cases roundLoop qsc (R.shuffle sim.rng order).1 (.noChange,
      ⟨sim.fbas, sim.events ++ [.startGlobalReevaluationRound], (R.shuffle sim.rng order).2⟩) with
  | error e =>
    dsimp only
    constructor
    · intro h; cases h
    · rintro ⟨c1, sim1, h, -⟩; cases h
  | ok pr =>
    obtain ⟨c1, sim1⟩ := pr
    dsimp only
    constructor
    · intro h; exact ⟨c1, sim1, rfl, h⟩
    · rintro ⟨c2, sim2, h, h2⟩
      obtain ⟨rfl, rfl⟩ := Prod.mk.inj (Except.ok.inj h)
      exact h2

/-- The first reevaluation. -/
theorem first_probability {L : ℕ} (hL : 0 < L) {size M : ℕ} {t : Option ℕ} {f : Fbas}
    (hsize : 2 ≤ size) (hn : size ≤ f.nodes.length) (hd : ∀ d, 0 < d → d ≤ f.nodes.length → d ∣ L)
    (he : ∀ x < f.nodes.length, HasQSet f x QuorumSet.empty)
    {S : NodeId → Finset ℕ} (hself : ∀ x < f.nodes.length, x ∈ S x)
    (hS : ∀ x < f.nodes.length, ∀ y ∈ S x, y < f.nodes.length) (hc : ∀ x < f.nodes.length, (S x).card = size)
    {ev : List Event} {K : Fbas → List Event → List ℕ → Prop} {p : ℚ}
    (h1 : ∀ f' ev', SameNames f f' → (∀ x < f.nodes.length, Chose f' x (S x)) → Probability L M (K f' ev') = p)
    (h0 : ∀ x < f.nodes.length, ∀ f' ev' s q', HasQSet f' x q' → q'.validators.length = size →
      q'.validators.toFinset ≠ S x → ¬ K f' ev' s) {m : ℕ} :
    Probability L (f.nodes.length + (f.nodes.length * (size - 1) + (f.nodes.length + M)))
      (fun r => ∃ k sim', simulateGlobalReevaluation (Qsc.random (lottery L) size t []) (m + 2) ⟨f, ev, r⟩ =
        .ok (k, sim') ∧ K sim'.fbas sim'.events sim'.rng) =
      p / (((f.nodes.length - 1).choose (size - 1) : ℕ) : ℚ) ^ f.nodes.length := by
  have hstep : ∀ σ : List ℕ, σ.Perm (rangeFT 0 f.nodes.length) →
      Probability L (f.nodes.length * (size - 1) + (f.nodes.length + M)) (fun r => ∃ c1 sim1, roundLoop
        (Qsc.random (lottery L) size t []) σ (.noChange,
          ⟨f, ev ++ [.startGlobalReevaluation] ++ [.startGlobalReevaluationRound], r⟩) = .ok (c1, sim1) ∧
        ∃ k sim2, reevaluationLoop (Qsc.random (lottery L) size t []) (m + 1) (!c1.hadChange) 1 σ
          ⟨sim1.fbas, sim1.events, sim1.rng⟩ = .ok (k, sim2) ∧
            K sim2.fbas (sim2.events ++ [.finishGlobalReevaluation k]) sim2.rng) =
        p / (((f.nodes.length - 1).choose (size - 1) : ℕ) : ℚ) ^ f.nodes.length := by
    intro σ hσ
    have hmem : ∀ x : ℕ, x ∈ σ ↔ x < f.nodes.length := by
      intro x
      rw [hσ.mem_iff, mem_rangeFT]
      exact ⟨fun h => h.2, fun h => ⟨Nat.zero_le _, h⟩⟩
    have hlen : σ.length = f.nodes.length := by rw [hσ.length_eq, length_rangeFT_zero]
    have hne : σ ≠ [] := fun h => by
      rw [h, List.length_nil] at hlen
      omega
    have hnd : σ.Nodup := hσ.nodup_iff.2 (nodup_rangeFT _ _)
    have h2 := round_probability hL (t := t) (M := f.nodes.length + M) (order := σ) (p := p) hsize hn hd hnd
      (fun x hx => he x ((hmem x).1 hx)) (S := S) (fun x hx => hself x ((hmem x).1 hx))
      (fun x hx => hS x ((hmem x).1 hx)) (fun x hx => hc x ((hmem x).1 hx)) (c := .noChange)
      (ev := ev ++ [.startGlobalReevaluation] ++ [.startGlobalReevaluationRound])
      (K := fun c1 f1 ev1 s1 => ∃ k sim2, reevaluationLoop (Qsc.random (lottery L) size t []) (m + 1) (!c1.hadChange) 1
        σ ⟨f1, ev1, s1⟩ = .ok (k, sim2) ∧ K sim2.fbas (sim2.events ++ [.finishGlobalReevaluation k]) sim2.rng)
      (fun f1 ev1 hf1 hch _ => by
        rw [if_neg hne, ← hlen]
        have hch' : ∀ x < f.nodes.length, Chose f1 x (S x) := fun x hx => hch x ((hmem x).2 hx)
        refine reevaluationLoop_probability hL (t := t) (fun x hx => ?_) (fun x hx => ?_)
          (K := fun k f ev s => K f (ev ++ [.finishGlobalReevaluation k]) s) (fun k ev' => by
            have h2 := h1 f1 (ev' ++ [.finishGlobalReevaluation k]) hf1 hch'
            exact h2)
        · rw [hf1.length] at hx
          exact (hch' x hx).sized hsize (hc x hx)
        · rw [hf1.length]; exact (hmem x).1 hx)
      (by
        rintro x hx c1 f1 ev1 s1 q1 hq1 hl1 hne1 ⟨k, sim2, h3, h4⟩
        refine h0 x ((hmem x).1 hx) sim2.fbas (sim2.events ++ [.finishGlobalReevaluation k]) sim2.rng q1 ?_ hl1 hne1 h4
        exact reevaluationLoop_keeps (P := fun f => HasQSet f x q1)
          (random_keeps (fun h => by rw [h] at hl1; simp at hl1; omega) (Nat.le_of_eq hl1.symm)) h3 hq1)
    rw [hlen] at h2
    exact h2
  have h3 := shuffle_probability hL (l := rangeFT 0 f.nodes.length) (length_rangeFT_zero _)
    (P := fun σ r => ∃ c1 sim1, roundLoop (Qsc.random (lottery L) size t []) σ (.noChange,
          ⟨f, ev ++ [.startGlobalReevaluation] ++ [.startGlobalReevaluationRound], r⟩) = .ok (c1, sim1) ∧
        ∃ k sim2, reevaluationLoop (Qsc.random (lottery L) size t []) (m + 1) (!c1.hadChange) 1 σ
          ⟨sim1.fbas, sim1.events, sim1.rng⟩ = .ok (k, sim2) ∧
            K sim2.fbas (sim2.events ++ [.finishGlobalReevaluation k]) sim2.rng) hstep
  rw [← h3]
  have hor : ∀ r : List ℕ, (lottery L).shuffle r (rangeFT 0 f.nodes.length) =
      orderBy f.nodes.length r (rangeFT 0 f.nodes.length) := by
    intro r
    show orderBy (rangeFT 0 f.nodes.length).length r _ = _
    rw [length_rangeFT_zero]
  refine probability_congr (fun r _ _ => ?_)
  rw [← hor]
  constructor
  · rintro ⟨k, sim', h4, h5⟩
    obtain ⟨sim1, h6, rfl⟩ := reevaluation_iff.1 h4
    obtain ⟨c1, sim2, h7, h8⟩ := reevaluationLoop_succ.1 h6
    exact ⟨c1, sim2, h7, k, sim1, h8, h5⟩
  · rintro ⟨c1, sim2, h7, k, sim1, h8, h5⟩
    exact ⟨k, _, reevaluation_iff.2 ⟨sim1, reevaluationLoop_succ.2 ⟨c1, sim2, h7, h8⟩, rfl⟩, h5⟩

/-! ### Growing -/

/-- How often the generator is used if nodes are added. -/
def growthDraws (size : ℕ) : ℕ → ℕ → ℕ
  | _, 0 => 0
  | m, k + 1 => size - 1 + (m + 1 + growthDraws size (m + 1) k)

theorem growth_succ {R : Rand} {qsc : Qsc R} {n : ℕ} {sim sim' : Simulator R} :
    simulateGrowth qsc (n + 1) sim = .ok sim' ↔ ∃ x f c f1 s1 k sim2,
      sim.fbas.addGenericNode QuorumSet.empty = .ok (x, f) ∧ qsc x (f, sim.rng) = .ok (c, f1, s1) ∧
      simulateGlobalReevaluation qsc f1.nodes.length ⟨f1, sim.events ++ [.addNode x], s1⟩ = .ok (k, sim2) ∧
      simulateGrowth qsc n sim2 = .ok sim' := by
  rw [simulateGrowth]
  constructor
  · intro h
    split at h
    · cases h
    · rename_i x f h1
      split at h
      · cases h
      · rename_i c f1 s1 h2
        dsimp only at h
        split at h
        · cases h
        · rename_i k sim2 h3
          exact ⟨x, f, c, f1, s1, k, sim2, h1, h2, h3, h⟩
  · rintro ⟨x, f, c, f1, s1, k, sim2, h1, h2, h3, h4⟩
    rw [h1]
    dsimp only
    rw [h2]
    dsimp only
    have h3' : simulateGlobalReevaluation qsc
        (({ sim with fbas := f1, rng := s1 } : Simulator R).registerEvent (.addNode x)).fbas.numberOfNodes
        (({ sim with fbas := f1, rng := s1 } : Simulator R).registerEvent (.addNode x)) = .ok (k, sim2) := h3
    rw [h3']
    exact h4

theorem growth_probability {L : ℕ} (hL : 0 < L) {size M : ℕ} {t : Option ℕ} (hsize : 2 ≤ size) {S : NodeId → Finset ℕ}
    {k m : ℕ} (hm : size ≤ m) {f : Fbas} (hreg : RegistryOk f)
    (hn : f.nodes.map Node.publicKey = (List.range m).map (fun i => "n" ++ toString i))
    (hd : ∀ d, 0 < d → d ≤ m + k → d ∣ L)
    (hc : ∀ x < m + k, (S x).card = size) (hch : ∀ x < m, Chose f x (S x))
    (hself : ∀ x, m ≤ x → x < m + k → x ∈ S x) (hS : ∀ x, m ≤ x → x < m + k → ∀ y ∈ S x, y ≤ x) {ev : List Event} :
    Probability L (growthDraws size m k + M) (fun r => ∃ sim', simulateGrowth (Qsc.random (lottery L) size t []) k
      ⟨f, ev, r⟩ = .ok sim' ∧ ∀ x < m + k, Chose sim'.fbas x (S x)) =
      ∏ j ∈ Finset.range k, 1 / (((m + j).choose (size - 1) : ℕ) : ℚ) := by
  induction k generalizing m f ev with
  | zero =>
    rw [Finset.range_zero, Finset.prod_empty, growthDraws, Nat.zero_add]
    exact probability_true hL (fun r _ _ => ⟨⟨f, ev, r⟩, rfl, hch⟩)
  | succ k ih =>
    have hl : f.nodes.length = m := by
      have := congrArg List.length hn; simpa using this
    obtain ⟨h1, h2⟩ := C40_add_generic_node f hreg QuorumSet.empty
    cases hr : f.addGenericNode QuorumSet.empty with
    | error e =>
      obtain ⟨n', hn', hp⟩ := h1.1 ⟨e, hr⟩
      have : n'.publicKey ∈ f.nodes.map Node.publicKey := List.mem_map_of_mem hn'
      rw [hn] at this
      obtain ⟨i, hi, hi'⟩ := List.mem_map.1 this
      have := genericNodeName_inj (i := i) (j := f.nodes.length) (hi'.trans hp)
      rw [List.mem_range] at hi
      omega
    | ok pr =>
      obtain ⟨x, f1⟩ := pr
      obtain ⟨h3, h4, h5⟩ := h2 x f1 hr
      have h3' : m = x := by rw [h3, hl]
      subst h3'
      have hfl : f1.nodes.length = m + 1 := by rw [h4]; simp [hl]
      have hnew : HasQSet f1 m QuorumSet.empty := by
        refine ⟨⟨"n" ++ toString f.nodes.length, QuorumSet.empty⟩, ?_, rfl⟩
        rw [h4, List.getElem?_append_right (by rw [hl]), hl, Nat.sub_self]; rfl
      rw [Finset.prod_range_succ', growthDraws, Nat.add_assoc, Nat.add_assoc, ← mul_div_assoc, mul_one]
      have hv := random_visit hL (t := t) (size := size) (f := f1) (x := m) (q := QuorumSet.empty)
        (M := m + 1 + (growthDraws size (m + 1) k + M)) (T := S m)
        (p := ∏ j ∈ Finset.range k, 1 / (((m + (j + 1)).choose (size - 1) : ℕ) : ℚ))
        (K := fun c f2 s2 => ∃ k' sim2, simulateGlobalReevaluation (Qsc.random (lottery L) size t []) f2.nodes.length
          ⟨f2, ev ++ [.addNode m], s2⟩ = .ok (k', sim2) ∧ ∃ sim', simulateGrowth (Qsc.random (lottery L) size t []) k
            ⟨sim2.fbas, sim2.events, sim2.rng⟩ = .ok sim' ∧ ∀ x < m + (k + 1), Chose sim'.fbas x (S x))
        hsize (by rw [hfl]; omega) (fun d h6 h7 => hd d h6 (by rw [hfl] at h7; omega)) hnew rfl
        (hself m (Nat.le_refl _) (by omega))
        (fun y hy => by
          have := hS m (Nat.le_refl _) (by omega) y hy
          rw [hfl]; omega)
        (hc m (by omega))
        (fun f2 hf2 hchm hoth => by
          have hl2 : f2.nodes.length = m + 1 := by rw [hf2.length, hfl]
          have hch2 : ∀ x < m + 1, Chose f2 x (S x) := by
            intro x hx
            by_cases hxm : x = m
            · rw [hxm]; exact hchm
            · obtain ⟨q, g1, g2⟩ := hch x (by omega)
              exact Chose.keep ⟨q, addGenericNode_keeps f _ f1 hr g1, g2⟩ (hoth x hxm)
          have hst := stable_probability hL (t := t) (size := size) (f := f2) (ev := ev ++ [.addNode m]) (m := m)
            (M := growthDraws size (m + 1) k + M)
            (p := ∏ j ∈ Finset.range k, 1 / (((m + (j + 1)).choose (size - 1) : ℕ) : ℚ))
            (K := fun f3 ev3 s3 => ∃ sim', simulateGrowth (Qsc.random (lottery L) size t []) k
              ⟨f3, ev3, s3⟩ = .ok sim' ∧ ∀ x < m + (k + 1), Chose sim'.fbas x (S x))
            (fun x hx => by
              rw [hl2] at hx
              exact (hch2 x hx).sized hsize (hc x (by omega)))
            (fun ev3 => by
              have hih := ih (m := m + 1) (by omega) (f := f2) (hf2.registry h5) (by
                  rw [hf2.1, h4, List.map_append, hn, hl, List.range_succ, List.map_append]; rfl)
                (fun d h6 h7 => hd d h6 (by omega)) (fun x hx => hc x (by omega)) hch2
                (fun x h6 h7 => hself x (by omega) (by omega)) (fun x h6 h7 => hS x (by omega) (by omega)) (ev := ev3)
              have e1 : m + 1 + k = m + (k + 1) := by omega
              have e2 : ∀ j, m + 1 + j = m + (j + 1) := by intro j; omega
              rw [e1] at hih
              simp only [e2] at hih
              exact hih)
          rw [hl2] at hst ⊢
          exact hst)
        (by
          rintro c f2 s2 q' hq' hl' hne' ⟨k', sim2, g1, sim', g2, g3⟩
          have hk : q'.validators ≠ [] := fun h => by rw [h] at hl'; simp at hl'; omega
          have g4 := reevaluation_keeps (P := fun f => HasQSet f m q') (random_keeps hk (Nat.le_of_eq hl'.symm)) g1 hq'
          have g5 := growth_keeps (P := fun f => HasQSet f m q') (random_keeps hk (Nat.le_of_eq hl'.symm))
            (fun f y f' h h' => addGenericNode_keeps f y f' h h') g2 g4
          obtain ⟨q2, g6, -, g7⟩ := g3 m (by omega)
          have : q2 = q' := Option.some.inj ((getQuorumSet_iff.2 g6).symm.trans (getQuorumSet_iff.2 g5))
          rw [this] at g7
          exact hne' g7)
      rw [hfl, Nat.add_sub_cancel] at hv
      rw [show (m + 0).choose (size - 1) = m.choose (size - 1) from rfl, ← hv]
      refine probability_congr (fun r _ _ => ?_)
      constructor
      · rintro ⟨sim', g1, g2⟩
        obtain ⟨x, f3, c, f2, s2, k', sim2, e1, e2, e3, e4⟩ := growth_succ.1 g1
        have e1' : f.addGenericNode QuorumSet.empty = .ok (x, f3) := e1
        rw [hr] at e1'
        obtain ⟨rfl, rfl⟩ := Prod.mk.inj (Except.ok.inj e1')
        exact ⟨c, f2, s2, e2, k', sim2, e3, sim', e4, g2⟩
      · rintro ⟨c, f2, s2, e2, k', sim2, e3, sim', e4, g2⟩
        exact ⟨sim', growth_succ.2 ⟨m, f1, c, f2, s2, k', sim2, hr, e2, e3, e4⟩, g2⟩

theorem growthDraws_le (size m k : ℕ) : growthDraws size m k ≤ k * (m + k + size) := by
  induction k generalizing m with
  | zero => rw [growthDraws]; exact Nat.zero_le _
  | succ k ih =>
    rw [growthDraws, Nat.succ_mul]
    have := ih (m + 1)
    have e : m + 1 + k + size = m + (k + 1) + size := by omega
    rw [e] at this
    omega

theorem simulate_iff {R : Rand} {qsc : Qsc R} {i g : ℕ} {s : R.State} {f0 f : Fbas}
    (h0 : Fbas.newGenericUnconfigured i = .ok f0) : QscSimulator.simulate qsc i g s = .ok f ↔
      ∃ k sim1, simulateGlobalReevaluation qsc i ⟨f0, [], s⟩ = .ok (k, sim1) ∧
        ∃ sim2, simulateGrowth qsc g ⟨sim1.fbas, sim1.events, sim1.rng⟩ = .ok sim2 ∧ f = sim2.fbas := by
  unfold QscSimulator.simulate
  rw [h0]
  dsimp only
  cases simulateGlobalReevaluation qsc i ⟨f0, [], s⟩ with
  | error e =>
    dsimp only
    constructor
    · intro h; cases h
    · rintro ⟨k, sim1, h, -⟩; cases h
  | ok pr =>
    obtain ⟨k, sim1⟩ := pr
    dsimp only
    constructor
    · intro h
      split at h
      · cases h
      · rename_i sim2 h2
        exact ⟨k, sim1, rfl, sim2, h2, (Except.ok.inj h).symm⟩
    · rintro ⟨k', sim1', h, sim2, h2, rfl⟩
      obtain ⟨rfl, rfl⟩ := Prod.mk.inj (Except.ok.inj h)
      have h2' : simulateGrowth qsc g sim1 = .ok sim2 := h2
      rw [h2']

/-- The probability of a network. -/
theorem simulate_probability {L : ℕ} (hL : 0 < L) {i g size N : ℕ} {t : Option ℕ} (hsize : 2 ≤ size) (hi : size ≤ i)
    (hd : ∀ d, 0 < d → d ≤ i + g → d ∣ L) (hN : (i + g) * (i + g + size) ≤ N) {V : NodeId → Finset ℕ}
    (hV : ∀ x < i + g, CanTrust size i (i + g) x (V x)) :
    Probability L N (fun r => ∃ f, QscSimulator.simulate (Qsc.random (lottery L) size t []) i g r = .ok f ∧
      ∀ x < i + g, Chose f x (V x)) =
      (1 / ((i - 1).choose (size - 1) : ℕ) : ℚ) ^ i *
        ∏ j ∈ Finset.range g, 1 / (((i + j).choose (size - 1) : ℕ) : ℚ) := by
  obtain ⟨f0, h1, h2, h3⟩ := C40_new_generic_unconfigured i
  have hl : f0.nodes.length = i := by rw [h2]; simp
  have hn0 : f0.nodes.map Node.publicKey = (List.range i).map (fun i => "n" ++ toString i) := by
    rw [h2, List.map_map]; rfl
  have hc : ∀ x < i + g, (V x).card = size := fun x hx => by rw [(hV x hx).card]; omega
  obtain ⟨M, hM⟩ : ∃ M, N = i + (i * (size - 1) + (i + (growthDraws size i g + M))) := by
    refine ⟨N - (i + (i * (size - 1) + (i + growthDraws size i g))), ?_⟩
    have h4 := growthDraws_le size i g
    have h5 : i * (size - 1) + i = i * size := by
      rw [← Nat.mul_succ]; congr 1; omega
    have h6 : (i + g) * (i + g + size) = i * size + i * (i + g) + g * (i + g + size) := by ring
    have h7 : i ≤ i * (i + g) := Nat.le_mul_of_pos_right _ (by omega)
    omega
  obtain ⟨m, hm⟩ : ∃ m, i = m + 2 := ⟨i - 2, by omega⟩
  have hf := first_probability hL (t := t) (size := size) (f := f0) (S := V) (ev := []) (m := m)
    (M := growthDraws size i g + M) (p := ∏ j ∈ Finset.range g, 1 / (((i + j).choose (size - 1) : ℕ) : ℚ))
    (K := fun f ev s => ∃ sim2, simulateGrowth (Qsc.random (lottery L) size t []) g ⟨f, ev, s⟩ = .ok sim2 ∧
      ∀ x < i + g, Chose sim2.fbas x (V x)) hsize (by rw [hl]; exact hi)
    (fun d h4 h5 => hd d h4 (by rw [hl] at h5; omega))
    (fun x hx => by
      rw [hl] at hx
      refine ⟨⟨"n" ++ toString x, QuorumSet.empty⟩, ?_, rfl⟩
      rw [h2, List.getElem?_map, List.getElem?_range hx]; rfl)
    (fun x hx => (hV x (by rw [hl] at hx; omega)).self)
    (fun x hx y hy => by
      rw [hl] at hx
      have h4 : (y : ℕ) < max (x + 1) (max i (min size (i + g))) := (hV x (by omega)).near y hy
      have key : ∀ x y i g size : ℕ, x < i → size ≤ i → y < max (x + 1) (max i (min size (i + g))) → y < i := by omega
      rw [hl]
      exact key x y i g size hx hi h4)
    (fun x hx => hc x (by rw [hl] at hx; omega))
    (fun f' ev' hf' hch => growth_probability hL hsize hi (hf'.registry h3) (by rw [hf'.1, hn0])
      hd hc (fun x hx => hch x (by rw [hl]; exact hx)) (fun x _ hx => (hV x hx).self)
      (fun x hx1 hx y hy => by
        have h4 : (y : ℕ) < max (x + 1) (max i (min size (i + g))) := (hV x hx).near y hy
        have key : ∀ x y i g size : ℕ, i ≤ x → size ≤ i → y < max (x + 1) (max i (min size (i + g))) → y ≤ x := by omega
        exact key x y i g size hx1 hi h4))
    (by
      rintro x hx f' ev' s q' hq' hl' hne' ⟨sim2, g1, g2⟩
      rw [hl] at hx
      have hk : q'.validators ≠ [] := fun h => by rw [h] at hl'; simp at hl'; omega
      have g5 := growth_keeps (P := fun f => HasQSet f x q') (random_keeps hk (Nat.le_of_eq hl'.symm))
        (fun f y f' h h' => addGenericNode_keeps f y f' h h') g1 hq'
      obtain ⟨q2, g6, -, g7⟩ := g2 x (Nat.lt_of_lt_of_le hx (Nat.le_add_right _ _))
      have : q2 = q' := Option.some.inj ((getQuorumSet_iff.2 g6).symm.trans (getQuorumSet_iff.2 g5))
      rw [this] at g7
      exact hne' g7)
  rw [hl, ← hM, ← hm] at hf
  rw [one_div, inv_pow, mul_comm, ← div_eq_mul_inv, ← hf]
  refine probability_congr (fun r _ _ => ?_)
  constructor
  · rintro ⟨f, e1, e2⟩
    obtain ⟨k, sim1, e3, sim2, e4, rfl⟩ := (simulate_iff h1).1 e1
    exact ⟨k, sim1, e3, sim2, e4, e2⟩
  · rintro ⟨k, sim1, e3, sim2, e4, e2⟩
    exact ⟨_, (simulate_iff h1).2 ⟨k, sim1, e3, sim2, e4, rfl⟩, e2⟩

end FA
