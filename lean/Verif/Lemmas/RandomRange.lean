import Verif.Lemmas.SimulatorFame
import Verif.Lemmas.ScaleFree
import Verif.SpecRange

/-!
# Lemmas about what random choices can lead to
-/

namespace FA
open Spec Simulator Props

/-! ### Simulation runs -/

/-- Like `Steady`, but new nodes are the only ones without configuration (of which there are `lo` in the
beginning), and `I n s` holds for the state of the generator while there are `n` nodes. -/
structure Gradual {R : Rand} (qsc : Qsc R) (N : ℕ) (A B : ℕ → NodeId → QuorumSet → Prop) (lo : ℕ)
    (I : ℕ → R.State → Prop) : Prop where
  empty : ∀ n x, n ≤ max lo (x + 1) → B n x QuorumSet.empty
  weaken : ∀ n x q, A n x q → B n x q
  grow : ∀ n x q, A n x q → B (n + 1) x q
  shuffle : ∀ n s l, I n s → I n (R.shuffle s l).2
  growState : ∀ n s, I n s → I (n + 1) s
  step : ∀ (f : Fbas) (s : R.State) (x : NodeId), x < f.nodes.length →
    lo ≤ f.nodes.length ∧ f.nodes.length ≤ N → I f.nodes.length s →
    (∀ y q, HasQSet f y q → B f.nodes.length y q) →
    ∃ c f' s' q', qsc x (f, s) = .ok (c, f', s') ∧ SameNames f f' ∧ I f.nodes.length s' ∧
      A f.nodes.length x q' ∧
      ∀ y, f'.getQuorumSet y = if y = x then some q' else f.getQuorumSet y

variable {R : Rand} {qsc : Qsc R} {N lo i : ℕ} {A B : ℕ → NodeId → QuorumSet → Prop}
  {I : ℕ → R.State → Prop}

theorem Gradual.round (h : Gradual qsc N A B lo I) (order : List NodeId) (c : ChangeEffect)
    (sim : Simulator R) (hN : sim.fbas.nodes.length ≤ N) (ho : ∀ x ∈ order, x < sim.fbas.nodes.length)
    (hB : ∀ y q, HasQSet sim.fbas y q → B sim.fbas.nodes.length y q)
    (hlo : lo ≤ sim.fbas.nodes.length) (hI : I sim.fbas.nodes.length sim.rng) :
    ∃ c' sim', roundLoop qsc order (c, sim) = .ok (c', sim') ∧ SameNames sim.fbas sim'.fbas ∧
      I sim.fbas.nodes.length sim'.rng ∧
      ∀ y q, HasQSet sim'.fbas y q → B sim.fbas.nodes.length y q ∧
        (y ∈ order ∨ (∀ q, HasQSet sim.fbas y q → A sim.fbas.nodes.length y q) →
          A sim.fbas.nodes.length y q) := by
  induction order generalizing c sim with
  | nil =>
    refine ⟨c, sim, rfl, ⟨rfl, rfl⟩, hI, fun y q hq => ⟨hB y q hq, ?_⟩⟩
    rintro (h | h)
    · cases h
    · exact h q hq
  | cons x order ih =>
    have hx := ho x List.mem_cons_self
    obtain ⟨d, f', s', q', h1, h2, h5, h3, h4⟩ := h.step sim.fbas sim.rng x hx ⟨hlo, hN⟩ hI hB
    rw [roundLoop, h1]
    have hset : ∀ y q, HasQSet f' y q → (y = x ∧ q = q') ∨ (y ≠ x ∧ HasQSet sim.fbas y q) := by
      intro y q hq
      rw [← getQuorumSet_iff, h4] at hq
      split at hq
      · rename_i hy; exact .inl ⟨hy, (Option.some.inj hq).symm⟩
      · rename_i hy; exact .inr ⟨hy, getQuorumSet_iff.1 hq⟩
    set sim1 : Simulator R := (({ sim with fbas := f', rng := s' } : Simulator R).registerEvent
      (.quorumSetChange x d)) with hsim1
    have hf1 : sim1.fbas = f' := rfl
    obtain ⟨c', sim', g1, g2, g5, g3⟩ := ih (c.update d) sim1
      (by rw [hf1, h2.length]; exact hN)
      (fun y hy => by rw [hf1, h2.length]; exact ho y (List.mem_cons_of_mem _ hy))
      (fun y q hq => by
        rw [hf1] at hq ⊢
        rw [h2.length]
        rcases hset y q hq with ⟨rfl, rfl⟩ | ⟨-, hq⟩
        · exact h.weaken _ _ _ h3
        · exact hB y q hq)
      (by rw [hf1, h2.length]; exact hlo)
      (by rw [hf1, h2.length]; exact h5)
    rw [hf1] at g2 g3 g5
    rw [h2.length] at g3 g5
    refine ⟨c', sim', g1, h2.trans g2, g5, fun y q hq => ⟨(g3 y q hq).1, fun hy => (g3 y q hq).2 ?_⟩⟩
    by_cases hyo : y ∈ order
    · exact .inl hyo
    · right
      intro q0 hq0
      rcases hset y q0 hq0 with ⟨rfl, rfl⟩ | ⟨hyx, hq0⟩
      · exact h3
      · rcases hy with hy | hy
        · rcases List.mem_cons.1 hy with hy | hy
          · exact absurd hy hyx
          · exact absurd hy hyo
        · exact hy q0 hq0

theorem Gradual.reevaluation (h : Gradual qsc N A B lo I) (max : ℕ) (sim : Simulator R)
    (hN : sim.fbas.nodes.length ≤ N)
    (hB : ∀ y q, HasQSet sim.fbas y q → B sim.fbas.nodes.length y q)
    (hmax : 1 ≤ max ∨ ∀ y q, HasQSet sim.fbas y q → A sim.fbas.nodes.length y q)
    (hlo : lo ≤ sim.fbas.nodes.length) (hI : I sim.fbas.nodes.length sim.rng) :
    ∃ k sim', simulateGlobalReevaluation qsc max sim = .ok (k, sim') ∧ SameNames sim.fbas sim'.fbas ∧
      I sim.fbas.nodes.length sim'.rng ∧ ∀ y q, HasQSet sim'.fbas y q → A sim.fbas.nodes.length y q := by
  have key : ∀ (remaining : ℕ) (stable : Bool) (next : ℕ) (order : List NodeId)
      (sim1 : Simulator R), SameNames sim.fbas sim1.fbas → I sim.fbas.nodes.length sim1.rng →
      order.Perm (List.range sim.fbas.nodes.length) →
      (∀ y q, HasQSet sim1.fbas y q → B sim.fbas.nodes.length y q) →
      ((1 ≤ remaining ∧ stable = false) ∨
        ∀ y q, HasQSet sim1.fbas y q → A sim.fbas.nodes.length y q) →
      ∃ k sim', reevaluationLoop qsc remaining stable next order sim1 = .ok (k, sim') ∧
        SameNames sim.fbas sim'.fbas ∧ I sim.fbas.nodes.length sim'.rng ∧
        ∀ y q, HasQSet sim'.fbas y q → A sim.fbas.nodes.length y q := by
    intro remaining
    induction remaining with
    | zero =>
      intro stable next order sim1 hn hi ho hb hr
      refine ⟨next, sim1, rfl, hn, hi, ?_⟩
      rcases hr with ⟨hr, -⟩ | hr
      · omega
      · exact hr
    | succ remaining ih =>
      intro stable next order sim1 hn hi ho hb hr
      rw [reevaluationLoop]
      by_cases hst : stable = true
      · rw [if_pos hst]
        refine ⟨next, sim1, rfl, hn, hi, ?_⟩
        rcases hr with ⟨-, hr⟩ | hr
        · rw [hr] at hst; cases hst
        · exact hr
      · rw [if_neg hst]
        have hp := R.shuffle_perm sim1.rng order
        have hi' := h.shuffle _ sim1.rng order hi
        dsimp only
        generalize R.shuffle sim1.rng order = p at hp hi' ⊢
        obtain ⟨order', rng⟩ := p
        dsimp only at hp hi' ⊢
        have hlen : sim1.fbas.nodes.length = sim.fbas.nodes.length := hn.length
        obtain ⟨c, sim2, h1, h2, h5, h3⟩ := h.round order' .noChange
          (({ sim1 with rng } : Simulator R).registerEvent .startGlobalReevaluationRound)
          (by show sim1.fbas.nodes.length ≤ N; rw [hlen]; exact hN)
          (fun x hx => by
            show x < sim1.fbas.nodes.length
            rw [hlen]; exact List.mem_range.1 ((hp.trans ho).mem_iff.1 hx))
          (fun y q hq => by
            show B sim1.fbas.nodes.length y q
            rw [hlen]; exact hb y q hq)
          (by show lo ≤ sim1.fbas.nodes.length; rw [hlen]; exact hlo)
          (by show I sim1.fbas.nodes.length rng; rw [hlen]; exact hi')
        have h5' : I sim1.fbas.nodes.length sim2.rng := h5
        rw [hlen] at h5'
        have h2' : SameNames sim1.fbas sim2.fbas := h2
        have h3' : ∀ y q, HasQSet sim2.fbas y q → B sim1.fbas.nodes.length y q ∧
          (y ∈ order' ∨ (∀ q, HasQSet sim1.fbas y q → A sim1.fbas.nodes.length y q) →
            A sim1.fbas.nodes.length y q) := h3
        rw [hlen] at h3'
        have h1' : simulateGlobalReevaluationRound qsc order' { sim1 with rng } = .ok (c, sim2) := h1
        rw [h1']
        refine ih _ _ _ _ (hn.trans h2') h5' (hp.trans ho) (fun y q hq => (h3' y q hq).1)
          (.inr (fun y q hq => (h3' y q hq).2 (.inl ?_)))
        rw [(hp.trans ho).mem_iff, List.mem_range, ← hlen, ← h2'.length]
        obtain ⟨node, hn', -⟩ := hq
        exact (List.getElem?_eq_some_iff.1 hn').1
  obtain ⟨k, sim', h1, h2, h5, h3⟩ := key max false 0 (rangeFT 0 sim.fbas.nodes.length)
    (sim.registerEvent .startGlobalReevaluation) ⟨rfl, rfl⟩ hI (by rw [rangeFT_zero]) hB
    (hmax.imp (fun h => ⟨h, rfl⟩) id)
  refine ⟨k, sim'.registerEvent (.finishGlobalReevaluation k), ?_, h2, h5, h3⟩
  unfold simulateGlobalReevaluation
  dsimp only
  rw [h1]

theorem Gradual.growth (h : Gradual qsc N A B lo I) (k m : ℕ) (hN : m + k ≤ N) (sim : Simulator R)
    (hreg : RegistryOk sim.fbas)
    (hn : sim.fbas.nodes.map Node.publicKey = (List.range m).map (fun i => "n" ++ toString i))
    (hA : ∀ y q, HasQSet sim.fbas y q → A m y q) (hlo : lo ≤ m) (hI : I m sim.rng) :
    ∃ sim', simulateGrowth qsc k sim = .ok sim' ∧ RegistryOk sim'.fbas ∧
      sim'.fbas.nodes.map Node.publicKey = (List.range (m + k)).map (fun i => "n" ++ toString i) ∧
      ∀ y q, HasQSet sim'.fbas y q → A (m + k) y q := by
  induction k generalizing m sim with
  | zero => exact ⟨sim, rfl, hreg, hn, hA⟩
  | succ k ih =>
    have hl : sim.fbas.nodes.length = m := by
      have := congrArg List.length hn; simpa using this
    obtain ⟨h1, h2⟩ := C40_add_generic_node sim.fbas hreg QuorumSet.empty
    cases hr : sim.fbas.addGenericNode QuorumSet.empty with
    | error e =>
      obtain ⟨n', hn', hp⟩ := h1.1 ⟨e, hr⟩
      have : n'.publicKey ∈ sim.fbas.nodes.map Node.publicKey := List.mem_map_of_mem hn'
      rw [hn] at this
      obtain ⟨i, hi, hi'⟩ := List.mem_map.1 this
      have := genericNodeName_inj (i := i) (j := sim.fbas.nodes.length) (hi'.trans hp)
      rw [List.mem_range] at hi
      omega
    | ok p =>
      obtain ⟨x, f⟩ := p
      obtain ⟨h3, h4, h5⟩ := h2 x f hr
      have h3' : m = x := by rw [h3, hl]
      subst h3'
      have hfl : f.nodes.length = m + 1 := by rw [h4]; simp [hl]
      have hfB : ∀ y q, HasQSet f y q → B (m + 1) y q := by
        rintro y q ⟨node, hnode, rfl⟩
        rw [h4] at hnode
        by_cases hy : y < m
        · rw [List.getElem?_append_left (by rw [hl]; exact hy)] at hnode
          exact h.grow _ _ _ (hA y _ ⟨node, hnode, rfl⟩)
        · rw [List.getElem?_append_right (by rw [hl]; exact Nat.le_of_not_lt hy)] at hnode
          rw [List.getElem?_singleton] at hnode
          split at hnode
          · rw [← Option.some.inj hnode]
            exact h.empty _ _ (by rw [Nat.not_lt] at hy; omega)
          · cases hnode
      have hmf : m < f.nodes.length := by rw [hfl]; exact Nat.lt_succ_self m
      have hfN : f.nodes.length ≤ N := by rw [hfl]; omega
      obtain ⟨c, f', s', q', g1, g2, g5, g3, g4⟩ := h.step f sim.rng m hmf
        ⟨by rw [hfl]; omega, hfN⟩ (by rw [hfl]; exact h.growState _ _ hI) (by
        rw [hfl]; exact hfB)
      rw [hfl] at g3 g5
      set sim1 : Simulator R := ({ sim with fbas := f', rng := s' } :
        Simulator R).registerEvent (.addNode m) with hsim1
      have hsf : sim1.fbas = f' := rfl
      have hl1 : sim1.fbas.nodes.length = m + 1 := by rw [hsf, g2.length, hfl]
      obtain ⟨k', sim2, e1, e2, e5, e3⟩ := h.reevaluation sim1.fbas.numberOfNodes sim1
        (by rw [hl1]; omega) (fun y q hq => by
          rw [hl1]
          rw [hsf, ← getQuorumSet_iff, g4] at hq
          split at hq
          · rename_i hy
            rw [hy, ← Option.some.inj hq]; exact h.weaken _ _ _ g3
          · exact hfB y q (getQuorumSet_iff.1 hq))
        (.inl (by
          show 1 ≤ sim1.fbas.nodes.length
          rw [hl1]; omega))
        (by rw [hl1]; omega)
        (by rw [hl1]; exact g5)
      rw [hl1] at e3 e5
      obtain ⟨sim', s1, s2, s3, s4⟩ := ih (m + 1) (by omega) sim2
        (e2.registry (by rw [hsf]; exact g2.registry h5)) (by
          rw [e2.1, hsf, g2.1, h4, List.map_append, hn, hl, List.range_succ, List.map_append]; rfl)
        e3 (by omega) e5
      have hk : m + 1 + k = m + (k + 1) := by omega
      rw [hk] at s3 s4
      refine ⟨sim', ?_, s2, s3, s4⟩
      rw [simulateGrowth, hr]
      dsimp only
      rw [g1]
      dsimp only
      rw [← hsim1, e1]
      exact s1

/-- The simulation of `qsc_simulator`. -/
theorem Gradual.simulate (h : Gradual qsc N A B i I) (g : ℕ) (hN : i + g ≤ N) (s : R.State)
    (hI : I i s) :
    ∃ f, QscSimulator.simulate qsc i g s = .ok f ∧ RegistryOk f ∧
      f.nodes.map Node.publicKey = (List.range (i + g)).map (fun i => "n" ++ toString i) ∧
      ∀ y q, HasQSet f y q → A (i + g) y q := by
  obtain ⟨f0, h1, h2, h3⟩ := C40_new_generic_unconfigured i
  have hl : f0.nodes.length = i := by rw [h2]; simp
  have hn0 : f0.nodes.map Node.publicKey = (List.range i).map (fun i => "n" ++ toString i) := by
    rw [h2, List.map_map]; rfl
  obtain ⟨k, sim1, g1, g2, g5, g3⟩ := h.reevaluation i ⟨f0, [], s⟩
    (by show f0.nodes.length ≤ N; rw [hl]; omega)
    (by
      rintro y q ⟨node, hn, rfl⟩
      have := List.mem_of_getElem? hn
      rw [h2] at this
      obtain ⟨j, -, rfl⟩ := List.mem_map.1 this
      exact h.empty _ _ (by show f0.nodes.length ≤ _; omega))
    (by
      rcases Nat.eq_zero_or_pos i with hi | hi
      · right
        rintro y q ⟨node, hn, -⟩
        have := (List.getElem?_eq_some_iff.1 hn).1
        rw [hl, hi] at this
        exact absurd this (Nat.not_lt_zero _)
      · exact .inl hi)
    (by show i ≤ f0.nodes.length; rw [hl])
    (by show I f0.nodes.length s; rw [hl]; exact hI)
  have g3' : ∀ y q, HasQSet sim1.fbas y q → A f0.nodes.length y q := g3
  have g2' : SameNames f0 sim1.fbas := g2
  have g5' : I f0.nodes.length sim1.rng := g5
  rw [hl] at g3' g5'
  obtain ⟨sim2, e1, e2, e3, e4⟩ := h.growth g i hN sim1 (g2'.registry h3) (by rw [g2'.1, hn0])
    g3' (Nat.le_refl _) g5'
  refine ⟨sim2.fbas, ?_, e2, e3, e4⟩
  unfold QscSimulator.simulate
  rw [h1]
  dsimp only
  rw [g1]
  dsimp only
  rw [e1]

/-! ### Random quorum sets -/

theorem random_full {size : ℕ} {t : Option ℕ} {w : List ℕ} {f : Fbas} {s : R.State} {x : NodeId}
    {q : QuorumSet} (hx : HasQSet f x q) (hne : q.validators ≠ []) (hge : size ≤ q.validators.length) :
    Qsc.random R size t w x (f, s) = .ok (.noChange, f, s) := by
  obtain ⟨-, hex⟩ := existing_eq hx
  obtain ⟨th, vs, inner⟩ := q
  unfold Qsc.random
  dsimp only
  rw [hex]
  dsimp only at hne hge ⊢
  rw [if_neg hne, if_neg (Nat.not_lt.2 hge), setQuorumSet_same hx]

/-- A random quorum set without nodes that were added later, except for the first ones that were needed. -/
def NearTarget (size : ℕ) (t : Option ℕ) (w : List ℕ) (lo n : ℕ) (x : NodeId) (q : QuorumSet) : Prop :=
  WeightedTarget size t w n x q ∧ ∀ v ∈ q.validators, v < max (x + 1) (max lo (min size n))

/-- What node `x` may have while there are `n` nodes: nothing if it is new, or what it has after being
configured now or before the last node was added. -/
def Recent (A : ℕ → NodeId → QuorumSet → Prop) (lo n : ℕ) (x : NodeId) (q : QuorumSet) : Prop :=
  (q = QuorumSet.empty ∧ n ≤ max lo (x + 1)) ∨ ∃ m, m ≤ n ∧ n ≤ m + 1 ∧ A m x q

theorem gradual_random (R : Rand) {size : ℕ} {t : Option ℕ} {w : List ℕ} {lo N : ℕ}
    (hw : EnoughWeight size (max lo (min size N)) w) (hsize : 2 ≤ size) :
    Gradual (Qsc.random R size t w) N (fun n x q => lo ≤ n ∧ NearTarget size t w lo n x q)
      (Recent (fun n x q => lo ≤ n ∧ NearTarget size t w lo n x q) lo) lo (fun _ _ => True) where
  empty _ _ h := .inl ⟨rfl, h⟩
  weaken n _ _ h := .inr ⟨n, Nat.le_refl _, Nat.le_succ _, h⟩
  grow n _ _ h := .inr ⟨n, Nat.le_succ _, Nat.le_refl _, h⟩
  shuffle _ _ _ _ := trivial
  growState _ _ _ := trivial
  step f s x hx hN _ hB := by
    obtain ⟨c, f', s', q', h1, h2, ⟨h3, h4⟩, h5⟩ := (steady_weighted R (t := t) hw hsize).step f s x hx hN
      (fun y q hq => by
        rcases hB y q hq with h | ⟨m, hm, -, h1, h2, -⟩
        · exact .inl h.1
        · exact .inr ⟨m, hm, h1, h2⟩)
    refine ⟨c, f', s', q', h1, h2, trivial, ⟨h3, h4, fun v hv => ?_⟩, h5⟩
    have hvn : v < f.nodes.length := by
      obtain ⟨⟨vs, rfl, -, -, h, -⟩, -⟩ := h4
      exact h v hv
    obtain ⟨q, -, hq⟩ := existing_ok hx
    rw [getQuorumSet_iff] at hq
    have k1 : ∀ v x n : ℕ, v < n → n ≤ max lo (x + 1) → v < max (x + 1) (max lo (min size n)) := by omega
    have k2 : ∀ v x n : ℕ, v < n → n ≤ size → v < max (x + 1) (max lo (min size n)) := by omega
    have k3 : ∀ v x m n : ℕ, m ≤ n → v < max (x + 1) (max lo (min size m)) →
      v < max (x + 1) (max lo (min size n)) := by omega
    rcases hB x q hq with ⟨-, h6⟩ | ⟨m, hm1, hm2, -, h7, h8⟩
    · exact k1 _ _ _ hvn h6
    · by_cases hs : f.nodes.length ≤ size
      · exact k2 _ _ _ hvn hs
      · have hlen : q.validators.length = size := by
          obtain ⟨⟨vs, rfl, -, -, -, h⟩, -⟩ := h7
          have : size ≤ m := by omega
          rw [Nat.min_eq_left this] at h
          exact h
        have hne : q.validators ≠ [] := by
          intro h
          rw [h, List.length_nil] at hlen
          omega
        rw [random_full hq hne (Nat.le_of_eq hlen.symm)] at h1
        obtain ⟨-, h9⟩ := Prod.mk.inj (Except.ok.inj h1)
        obtain ⟨rfl, -⟩ := Prod.mk.inj h9
        have h10 := h5 x
        rw [if_pos rfl, getQuorumSet_iff.2 hq] at h10
        obtain rfl := Option.some.inj h10
        exact k3 _ _ _ _ hm1 (h8 v hv)

/-! ### A generator that grants wishes -/

/-- The node that is missing among the first ones. -/
def missingNode (l : List NodeId) : NodeId :=
  ((List.range (l.length + 1)).filter (fun x => decide (x ∉ l))).headD 0

theorem missingNode_eq {n : ℕ} {x : NodeId} (hx : x < n) :
    missingNode ((rangeFT 0 n).filter (fun y => decide (y ∉ [x]))) = x := by
  have hlen : ((rangeFT 0 n).filter (fun y => decide (y ∉ [x]))).length + 1 = n := by
    have h1 : ((rangeFT 0 n).filter (fun y => decide (y ∉ [x]))) = (List.range n).erase x := by
      rw [rangeFT_zero, List.nodup_range.erase_eq_filter]
      exact List.filter_congr (fun a _ => by by_cases h : a = x <;> simp [h])
    rw [h1, List.length_erase_of_mem (List.mem_range.2 hx), List.length_range]
    exact Nat.sub_add_cancel (Nat.lt_of_le_of_lt (Nat.zero_le _) hx)
  unfold missingNode
  rw [hlen]
  have : (List.range n).filter (fun y => decide (y ∉ (rangeFT 0 n).filter
      (fun y => decide (y ∉ [x])))) = (List.range n).filter (fun y => decide (y = x)) := by
    refine List.filter_congr (fun a ha => ?_)
    rw [decide_eq_decide, List.mem_filter, rangeFT_zero, decide_eq_true_eq, List.mem_singleton]
    constructor
    · intro h
      by_contra hne
      exact h ⟨ha, hne⟩
    · rintro rfl ⟨-, h⟩
      exact h rfl
  rw [this]
  have hmem : ∀ y ∈ (List.range n).filter (fun y => decide (y = x)), y = x := by
    intro y hy
    simpa using (List.mem_filter.1 hy).2
  have hin : x ∈ (List.range n).filter (fun y => decide (y = x)) := by
    rw [List.mem_filter]
    exact ⟨List.mem_range.2 hx, by simp⟩
  cases hl : (List.range n).filter (fun y => decide (y = x)) with
  | nil => rw [hl] at hin; cases hin
  | cons a l =>
    rw [hl] at hmem
    exact hmem a List.mem_cons_self

/-- A generator with which node `x` chooses nodes in `V x`, if possible. The state consists of the node
for which was chosen last, and the number of nodes that it can choose from next. -/
def wishing (V : NodeId → Finset NodeId) : Rand where
  State := NodeId × ℕ
  shuffle s l := (l, s)
  shuffle_perm _ _ := List.Perm.refl _
  chooseWeighted s w l :=
    let x := if l.length = s.2 then s.1 else missingNode l
    ((l.find? (fun y => decide (y ∈ V x ∧ 0 < w y))).or (l.find? (fun y => decide (0 < w y))),
      (x, l.length - 1))
  chooseWeighted_some s w l x h := by
    dsimp only at h
    rw [Option.or_eq_some_iff] at h
    rcases h with h | ⟨-, h⟩
    · have := List.find?_some h
      rw [decide_eq_true_eq] at this
      exact ⟨List.mem_of_find?_eq_some h, this.2⟩
    · have := List.find?_some h
      rw [decide_eq_true_eq] at this
      exact ⟨List.mem_of_find?_eq_some h, this⟩
  chooseWeighted_none s w l h x hx := by
    dsimp only at h
    rw [Option.or_eq_none_iff] at h
    have := List.find?_eq_none.1 h.2 x hx
    rw [decide_eq_true_eq] at this
    omega
  choose s l := (l.head?, s)
  choose_some _ _ _ h := List.mem_of_mem_head? h
  choose_none _ _ h := List.head?_eq_none_iff.1 h
  genBool s _ := (false, s)
  genBool_zero _ := rfl

/-- Node `x` chooses from `l`. -/
def ChoosesFor (x : NodeId) (l : List NodeId) (s : NodeId × ℕ) : Prop :=
  (if l.length = s.2 then s.1 else missingNode l) = x

theorem wishing_state {V : NodeId → Finset NodeId} {w : List ℕ} {k : ℕ} {l vs vs' : List NodeId}
    {s s' : (wishing V).State} (h : Qsc.randomLoop (wishing V) w k l vs s = .ok (vs', s')) :
    s' = s ∨ Prod.snd (α := NodeId) (β := ℕ) s' + 1 ≤ l.length := by
  induction k generalizing l vs s with
  | zero =>
    rw [Qsc.randomLoop] at h
    exact .inl (Prod.mk.inj (Except.ok.inj h)).2.symm
  | succ k ih =>
    rw [Qsc.randomLoop] at h
    cases hc : (wishing V).chooseWeighted s (fun x => w.getD x 1) l with
    | mk r s1 =>
      have hs1 : Prod.snd (α := NodeId) (β := ℕ) s1 = l.length - 1 := by
        have := congrArg Prod.snd hc
        exact (congrArg (Prod.snd (α := NodeId) (β := ℕ)) this).symm
      have hsome := (wishing V).chooseWeighted_some s (fun x => w.getD x 1) l
      rw [hc] at h hsome
      cases r with
      | none => cases h
      | some y =>
        obtain ⟨hy, -⟩ := hsome y rfl
        dsimp only at h
        have hlen := List.length_erase_of_mem hy
        have hpos : 0 < l.length := List.length_pos_of_mem hy
        right
        rcases ih h with h1 | h1
        · rw [h1, hs1]; omega
        · omega

theorem wishing_loop {V : NodeId → Finset NodeId} {w : List ℕ} {x : NodeId} {k : ℕ}
    {l vs vs' : List NodeId} {s s' : (wishing V).State} (hl : l.Nodup) (hs : 0 < k → ChoosesFor x l s)
    (hw : ∀ y ∈ l, y ∈ V x → 0 < w.getD y 1) (hk : k ≤ (l.filter (fun y => decide (y ∈ V x))).length)
    (h : Qsc.randomLoop (wishing V) w k l vs s = .ok (vs', s')) : ∀ y ∈ vs', y ∈ vs ∨ y ∈ V x := by
  induction k generalizing l vs s with
  | zero =>
    rw [Qsc.randomLoop] at h
    rw [← (Prod.mk.inj (Except.ok.inj h)).1]
    exact fun y hy => .inl hy
  | succ k ih =>
    rw [Qsc.randomLoop] at h
    have hne : (l.find? (fun y => decide (y ∈ V x ∧ 0 < w.getD y 1))) ≠ none := by
      intro hnone
      obtain ⟨y, hy⟩ := List.exists_mem_of_ne_nil (l.filter (fun y => decide (y ∈ V x))) (by
        intro h
        rw [h, List.length_nil] at hk
        omega)
      rw [List.mem_filter, decide_eq_true_eq] at hy
      have := List.find?_eq_none.1 hnone y hy.1
      rw [decide_eq_true_eq] at this
      exact this ⟨hy.2, hw y hy.1 hy.2⟩
    obtain ⟨y, hy⟩ := Option.ne_none_iff_exists'.1 hne
    have hc : (wishing V).chooseWeighted s (fun x => w.getD x 1) l = (some y, (x, l.length - 1)) := by
      have hs' := hs (Nat.succ_pos _)
      unfold ChoosesFor at hs'
      unfold wishing
      dsimp only
      rw [hs', hy, Option.some_or]
    rw [hc] at h
    dsimp only at h
    have hyl := List.mem_of_find?_eq_some hy
    have hyV := List.find?_some hy
    rw [decide_eq_true_eq] at hyV
    have hlen := List.length_erase_of_mem hyl
    have h2 := ih (hl.erase y) (fun _ => by unfold ChoosesFor; exact if_pos hlen)
      (fun z hz => hw z (List.mem_of_mem_erase hz)) (by
        have h4 : (l.erase y).filter (fun z => decide (z ∈ V x)) =
            (l.filter (fun z => decide (z ∈ V x))).erase y := by
          rw [hl.erase_eq_filter, (hl.filter _).erase_eq_filter, List.filter_filter, List.filter_filter]
          exact List.filter_congr (fun a _ => Bool.and_comm _ _)
        rw [h4, List.length_erase_of_mem (List.mem_filter.2 ⟨hyl, by simpa using hyV.1⟩)]
        omega) h
    intro z hz
    rcases h2 z hz with h3 | h3
    · rcases List.mem_append.1 h3 with h3 | h3
      · exact .inl h3
      · rw [List.mem_singleton.1 h3]; exact .inr hyV.1
    · exact .inr h3

theorem random_ok_loop {size : ℕ} {t : Option ℕ} {w : List ℕ} {f f' : Fbas} {s s' : R.State} {x : NodeId}
    {q : QuorumSet} {c : ChangeEffect} (hx : HasQSet f x q) (hlt : (startFrom q x).length < size)
    (h : Qsc.random R size t w x (f, s) = .ok (c, f', s')) :
    ∃ vs th, Qsc.randomLoop R w (min size f.nodes.length - (startFrom q x).length)
        ((rangeFT 0 f.nodes.length).filter (fun y => decide (y ∉ startFrom q x))) (startFrom q x) s =
          .ok (vs, s') ∧ HasQSet f' x ⟨th, vs, q.inner⟩ := by
  obtain ⟨hxn, hex⟩ := existing_eq hx
  unfold Qsc.random at h
  dsimp only at h
  rw [hex] at h
  dsimp only at h
  have hvs : (if q.validators = [] then [x] else q.validators) = startFrom q x := rfl
  rw [hvs, if_pos hlt] at h
  cases hr : Qsc.randomLoop R w (min size f.nodes.length - (startFrom q x).length)
      ((rangeFT 0 f.nodes.length).filter (fun y => decide (y ∉ startFrom q x))) (startFrom q x) s with
  | error e => rw [hr] at h; cases h
  | ok p =>
    obtain ⟨vs, s1⟩ := p
    rw [hr] at h
    dsimp only at h
    obtain ⟨f1, g1, -, g3⟩ := swap_spec hxn
      { q with threshold := t.getD (Qsc.calculate67pThreshold (min size f.nodes.length)),
               validators := vs }
    rw [g1] at h
    obtain ⟨-, h6⟩ := Prod.mk.inj (Except.ok.inj h)
    obtain ⟨rfl, rfl⟩ := Prod.mk.inj h6
    exact ⟨vs, _, rfl, by rw [← getQuorumSet_iff, g3, if_pos rfl]⟩

/-- `V x` are the validators that node `x` has in the end: itself and others, `min size N` altogether, none of
which were added later, except for the first ones that were needed. -/
structure Wishes (size lo N : ℕ) (w : List ℕ) (V : NodeId → Finset NodeId) : Prop where
  self : ∀ x < N, x ∈ V x
  near : ∀ x < N, ∀ v ∈ V x, v < max (x + 1) (max lo (min size N))
  card : ∀ x < N, (V x).card = min size N
  weight : ∀ x < N, ∀ v ∈ V x, v ≠ x → 0 < w.getD v 1

theorem Wishes.all {size lo N : ℕ} {w : List ℕ} {V : NodeId → Finset NodeId} (h : Wishes size lo N w V)
    {x n : ℕ} (hx : x < n) (hlo : lo ≤ n) (hN : n ≤ N) (hs : n ≤ size) : Finset.range n ⊆ V x := by
  have h1 : V x ⊆ Finset.range (min size N) := by
    intro v hv
    have := h.near x (by omega) v hv
    have e : max (x + 1) (max lo (min size N)) = min size N := by omega
    rw [e] at this
    exact Finset.mem_range.2 this
  have h2 : V x = Finset.range (min size N) :=
    Finset.eq_of_subset_of_card_le h1 (by rw [h.card x (by omega), Finset.card_range])
  rw [h2]
  intro v hv
  rw [Finset.mem_range] at hv ⊢
  omega

theorem Wishes.available {size lo N : ℕ} {w : List ℕ} {V : NodeId → Finset NodeId}
    (h : Wishes size lo N w V) {x n : ℕ} (hx : x < n) (hlo : lo ≤ n) (hN : n ≤ N)
    (hn : n ≤ size ∨ n ≤ max lo (x + 1)) :
    min size n ≤ ((Finset.range n).filter (fun y => y ∈ V x)).card := by
  by_cases hs : n ≤ size
  · have h1 := h.all hx hlo hN hs
    rw [Finset.filter_true_of_mem (fun y hy => h1 hy), Finset.card_range]
    omega
  · have h1 : V x ⊆ (Finset.range n).filter (fun y => y ∈ V x) := by
      intro v hv
      have h2 := h.near x (by omega) v hv
      have e : max (x + 1) (max lo (min size N)) = n := by omega
      rw [e] at h2
      exact Finset.mem_filter.2 ⟨Finset.mem_range.2 h2, hv⟩
    have h2 := Finset.card_le_card h1
    rw [h.card x (by omega)] at h2
    omega

theorem gradual_wishing {size : ℕ} {t : Option ℕ} {w : List ℕ} {lo N : ℕ} {V : NodeId → Finset NodeId}
    (hV : Wishes size lo N w V) (hsize : 2 ≤ size) :
    Gradual (Qsc.random (wishing V) size t w) N
      (fun n x q => lo ≤ n ∧ RandomTarget size t n x q ∧ ∀ v ∈ q.validators, v ∈ V x)
      (Recent (fun n x q => lo ≤ n ∧ RandomTarget size t n x q ∧ ∀ v ∈ q.validators, v ∈ V x) lo) lo
      (fun n s => Prod.snd (α := NodeId) (β := ℕ) s + 2 ≤ n ∨ Prod.snd (α := NodeId) (β := ℕ) s = 0) where
  empty _ _ h := .inl ⟨rfl, h⟩
  weaken n _ _ h := .inr ⟨n, Nat.le_refl _, Nat.le_succ _, h⟩
  grow n _ _ h := .inr ⟨n, Nat.le_succ _, Nat.le_refl _, h⟩
  shuffle _ _ _ h := h
  growState n s h := h.imp (fun h => Nat.le_succ_of_le h) id
  step f s x hx hN hI hB := by
    obtain ⟨hlo, hN⟩ := hN
    obtain ⟨q, hex, hq⟩ := existing_ok hx
    rw [getQuorumSet_iff] at hq
    have hb := hB x q hq
    by_cases hlt : q.validators.length < size
    · have hnd : q.validators.Nodup := by
        rcases hb with ⟨rfl, -⟩ | ⟨m, -, -, -, ⟨vs, rfl, h, -⟩, -⟩
        · exact List.nodup_nil
        · exact h
      have hr : ∀ v ∈ q.validators, v < f.nodes.length := by
        rcases hb with ⟨rfl, -⟩ | ⟨m, hm, -, -, ⟨vs, rfl, -, -, h, -⟩, -⟩
        · intro v hv; cases hv
        · exact fun v hv => Nat.lt_of_lt_of_le (h v hv) hm
      have hin : q.inner = [] := by
        rcases hb with ⟨rfl, -⟩ | ⟨m, -, -, -, ⟨vs, rfl, -⟩, -⟩ <;> rfl
      have hxN : x < N := Nat.lt_of_lt_of_le hx hN
      have hold : ∀ v ∈ startFrom q x, v ∈ V x := by
        intro v hv
        rcases hb with ⟨rfl, -⟩ | ⟨m, -, -, -, ⟨vs, rfl, -, hxv, -⟩, h⟩
        · rw [List.mem_singleton.1 hv]; exact hV.self x hxN
        · unfold startFrom at hv
          rw [if_neg (List.ne_nil_of_mem hxv)] at hv
          exact h v hv
      have hself : x ∈ startFrom q x := by
        rcases hb with ⟨rfl, -⟩ | ⟨m, -, -, -, ⟨vs, rfl, -, hxv, -⟩, -⟩
        · exact List.mem_singleton_self _
        · unfold startFrom
          rw [if_neg (List.ne_nil_of_mem hxv)]
          exact hxv
      have hsmall : f.nodes.length ≤ size ∨ (q = QuorumSet.empty ∧ f.nodes.length ≤ max lo (x + 1)) := by
        rcases hb with h | ⟨m, hm1, hm2, -, ⟨vs, rfl, -, -, -, h⟩, -⟩
        · exact .inr h
        · left
          change vs.length < size at hlt
          omega
      have hstart : (startFrom q x).length < size := by
        unfold startFrom
        split
        · exact hsize
        · exact hlt
      have hav := hV.available hx hlo hN (hsmall.imp id (fun h => h.2))
      have hpos : ∀ y ∈ V x, y ∉ startFrom q x → 0 < w.getD y 1 := fun y hy hy' =>
        hV.weight x hxN y hy (fun e => hy' (e ▸ hself))
      have hok : ∃ r, Qsc.random (wishing V) size t w x (f, s) = .ok r := by
        cases hc : Qsc.random (wishing V) size t w x (f, s) with
        | ok r => exact ⟨r, rfl⟩
        | error e =>
          exfalso
          obtain ⟨-, h2⟩ := (random_error_iff hq).1 ⟨e, hc⟩
          have h3 : (Finset.range f.nodes.length).filter (fun y => y ∈ V x) ⊆
              choosable f.nodes.length w (startFrom q x) ∪ (startFrom q x).toFinset := by
            intro y hy
            rw [Finset.mem_filter, Finset.mem_range] at hy
            rw [Finset.mem_union, List.mem_toFinset, mem_choosable]
            by_cases hm : y ∈ startFrom q x
            · exact .inr hm
            · exact .inl ⟨hy.1, hm, hpos y hy.2 hm⟩
          have h4 := (Finset.card_le_card h3).trans (Finset.card_union_le _ _)
          rw [List.toFinset_card_of_nodup (startFrom_nodup hnd)] at h4
          omega
      obtain ⟨⟨c, f', s'⟩, h1⟩ := hok
      obtain ⟨-, vs, g1, g2, g3, g4, g5, g6, -, g7, g8, g9⟩ :=
        C45_random_partial (wishing V) size t w f f' s s' c x q hq hnd hr hlt hsize h1
      obtain ⟨vs', th, e1, e2⟩ := random_ok_loop hq hstart h1
      have hvs : vs' = vs := by
        rw [← getQuorumSet_iff] at g1 e2
        rw [g1] at e2
        exact (congrArg QuorumSet.validators (Option.some.inj e2)).symm
      subst hvs
      rw [hin] at g1
      have hlen : ((rangeFT 0 f.nodes.length).filter (fun y => decide (y ∉ startFrom q x))).length + 1 ≤
          f.nodes.length := by
        have : ((rangeFT 0 f.nodes.length).filter (fun y => decide (y ∉ startFrom q x))) ⊆
            (List.range f.nodes.length).erase x := by
          intro y hy
          rw [List.mem_filter, rangeFT_zero, decide_eq_true_eq] at hy
          rw [List.nodup_range.mem_erase_iff]
          exact ⟨fun e => hy.2 (e ▸ hself), hy.1⟩
        have := (List.subperm_of_subset ((nodup_rangeFT _ _).filter _) this).length_le
        rw [List.length_erase_of_mem (List.mem_range.2 hx), List.length_range] at this
        have key : ∀ a n x : ℕ, x < n → a ≤ n - 1 → a + 1 ≤ n := by omega
        exact key _ _ _ hx this
      refine ⟨c, f', s', _, h1, ⟨g8, g9⟩, ?_, ⟨hlo, ⟨vs', rfl, g2, ?_, g3, g6⟩, fun v hv => ?_⟩,
        fun y => ?_⟩
      · rcases wishing_state e1 with h | h
        · rw [h]; exact hI
        · left; omega
      · rcases hb with ⟨rfl, -⟩ | ⟨m, -, -, -, ⟨vs, rfl, -, h, -⟩, -⟩
        · exact g5 rfl
        · exact g4 x h
      · rcases hsmall with hs | ⟨rfl, hn⟩
        · exact hV.all hx hlo hN hs (Finset.mem_range.2 (g3 v hv))
        · have hfor : 0 < min size f.nodes.length - (startFrom QuorumSet.empty x).length →
              ChoosesFor x ((rangeFT 0 f.nodes.length).filter
                (fun y => decide (y ∉ startFrom QuorumSet.empty x))) s := by
            intro hk
            have hst : startFrom QuorumSet.empty x = [x] := rfl
            rw [hst] at hk hlen ⊢
            unfold ChoosesFor
            have hl2 : ((rangeFT 0 f.nodes.length).filter (fun y => decide (y ∉ [x]))).length + 1 =
                f.nodes.length := by
              have h1 : ((rangeFT 0 f.nodes.length).filter (fun y => decide (y ∉ [x]))) =
                  (List.range f.nodes.length).erase x := by
                rw [rangeFT_zero, List.nodup_range.erase_eq_filter]
                exact List.filter_congr (fun a _ => by by_cases h : a = x <;> simp [h])
              rw [h1, List.length_erase_of_mem (List.mem_range.2 hx), List.length_range]
              exact Nat.sub_add_cancel (Nat.lt_of_le_of_lt (Nat.zero_le _) hx)
            rw [if_neg, missingNode_eq hx]
            intro he
            rw [List.length_singleton] at hk
            rcases hI with h | h
            · omega
            · omega
          have hmany : min size f.nodes.length - (startFrom QuorumSet.empty x).length ≤
              (((rangeFT 0 f.nodes.length).filter
                (fun y => decide (y ∉ startFrom QuorumSet.empty x))).filter
                  (fun y => decide (y ∈ V x))).length := by
            have hst : startFrom QuorumSet.empty x = [x] := rfl
            rw [hst, List.length_singleton]
            have h3 : (((rangeFT 0 f.nodes.length).filter (fun y => decide (y ∉ [x]))).filter
                (fun y => decide (y ∈ V x))).toFinset =
                ((Finset.range f.nodes.length).filter (fun y => y ∈ V x)).erase x := by
              ext y
              rw [List.mem_toFinset, List.mem_filter, List.mem_filter, rangeFT_zero, List.mem_range,
                Finset.mem_erase, Finset.mem_filter, Finset.mem_range, decide_eq_true_eq,
                decide_eq_true_eq, List.mem_singleton]
              exact ⟨fun h => ⟨h.1.2, h.1.1, h.2⟩, fun h => ⟨⟨h.2.1, h.1⟩, h.2.2⟩⟩
            have h4 := congrArg Finset.card h3
            rw [List.toFinset_card_of_nodup (((nodup_rangeFT _ _).filter _).filter _),
              Finset.card_erase_of_mem
                (Finset.mem_filter.2 ⟨Finset.mem_range.2 hx, hV.self x hxN⟩)] at h4
            exact (Nat.sub_le_sub_right hav 1).trans (Nat.le_of_eq h4.symm)
          rcases wishing_loop ((nodup_rangeFT _ _).filter _) hfor
            (fun y hy hyV => hpos y hyV (by simpa using (List.mem_filter.1 hy).2)) hmany e1 v hv with h | h
          · exact hold v h
          · exact h
      · split
        · rename_i hy; rw [hy]; exact getQuorumSet_iff.2 g1
        · rename_i hy
          refine Option.ext (fun q' => ?_)
          rw [getQuorumSet_iff, getQuorumSet_iff]; exact g7 y q' hy
    · rcases hb with ⟨rfl, -⟩ | ⟨m, hm1, hm2, -, ⟨vs, rfl, h1, h2, h3, h4⟩, hv⟩
      · exfalso; exact hlt (Nat.lt_of_lt_of_le Nat.zero_lt_two hsize)
      · dsimp only at hlt
        have h5 : min size m = size := by omega
        have h6 : min size f.nodes.length = size := by omega
        rw [h5] at hq h4
        refine ⟨.noChange, f, s, _, random_full hq (List.ne_nil_of_mem h2) (Nat.le_of_not_lt hlt),
          ⟨rfl, rfl⟩, hI, ⟨hlo, ⟨vs, rfl, h1, h2, fun v hv => Nat.lt_of_lt_of_le (h3 v hv) hm1,
            by rw [h6, h4]⟩, hv⟩, fun y => ?_⟩
        split
        · rename_i hy; rw [hy, h6]; exact getQuorumSet_iff.2 hq
        · rfl

/-! ### A generator that follows a script -/

/-- A generator that chooses the given nodes one after the other, if possible, and shuffles to `p`, if
possible. -/
def scripted (p : List NodeId) : Rand where
  State := List NodeId
  shuffle s l := if p.isPerm l then (p, s) else (l, s)
  shuffle_perm s l := by
    split
    · rename_i h; exact List.isPerm_iff.1 h
    · exact List.Perm.refl _
  chooseWeighted s w l :=
    if s.head?.any (fun y => decide (y ∈ l ∧ 0 < w y)) then (s.head?, s.tail)
    else (l.find? (fun y => decide (0 < w y)), s)
  chooseWeighted_some s w l x h := by
    split at h
    · rename_i hs
      dsimp only at h
      rw [h] at hs
      simpa using hs
    · have := List.find?_some h
      rw [decide_eq_true_eq] at this
      exact ⟨List.mem_of_find?_eq_some h, this⟩
  chooseWeighted_none s w l h x hx := by
    split at h
    · rename_i hs
      dsimp only at h
      rw [h] at hs
      simp at hs
    · have := List.find?_eq_none.1 h x hx
      rw [decide_eq_true_eq] at this
      omega
  choose s l := (l.head?, s)
  choose_some _ _ _ h := List.mem_of_mem_head? h
  choose_none _ _ h := List.head?_eq_none_iff.1 h
  genBool s _ := (false, s)
  genBool_zero _ := rfl

theorem scaleFreeLinks_some {i k : ℕ} {o o' : List (List ℕ)} {targets : List ℕ} {s s' : R.State} {j : ℕ}
    (hc : R.chooseWeighted s (fun x => (o.getD x []).length) targets = (some j, s'))
    (h : Graph.connect o i j = .ok o') : Graph.scaleFreeLinks R i (k + 1) (o, targets, s) =
      Graph.scaleFreeLinks R i k (o', targets.filter (fun x => decide (x ≠ j)), s') := by
  rw [Graph.scaleFreeLinks, hc]
  dsimp only
  rw [h]

theorem scripted_links {p : List NodeId} {n i : ℕ} (hi : i < n) {T rest : List ℕ} {o : List (List ℕ)}
    {targets : List ℕ} (hT : T.Nodup) (ho : o.length = n)
    (hTi : ∀ j ∈ T, j < i ∧ j ∈ targets ∧ row o j ≠ []) :
    ∃ o', Graph.scaleFreeLinks (scripted p) i T.length (o, targets, (T ++ rest : List NodeId)) =
        .ok (o', (rest : List NodeId)) ∧
      ∀ x y, y ∈ row o' x ↔ y ∈ row o x ∨ (x = i ∧ y ∈ T) ∨ (y = i ∧ x ∈ T) := by
  induction T generalizing o targets with
  | nil =>
    refine ⟨o, rfl, fun x y => ⟨.inl, ?_⟩⟩
    rintro (h | ⟨-, h⟩ | ⟨-, h⟩)
    · exact h
    · cases h
    · cases h
  | cons j T ih =>
    obtain ⟨hji, hjt, hjr⟩ := hTi j List.mem_cons_self
    obtain ⟨hjT, hT'⟩ := List.nodup_cons.1 hT
    obtain ⟨o1, e1, e2, -, e4⟩ := connect_spec (o := o) (a := i) (b := j) (by omega)
      (by omega) (by omega)
    have hc : (scripted p).chooseWeighted ((j :: T) ++ rest : List NodeId)
        (fun x => (o.getD x []).length) targets = (some j, (T ++ rest : List NodeId)) := by
      have hpos : 0 < (o.getD j []).length := List.length_pos_iff.2 hjr
      unfold scripted
      dsimp only
      rw [if_pos (by simp only [List.cons_append, List.head?_cons, Option.any_some, decide_eq_true_eq]
                     exact ⟨hjt, hpos⟩)]
      rfl
    have hmem : ∀ x y, y ∈ row o1 x ↔ y ∈ row o x ∨ (x = i ∧ y = j) ∨ (x = j ∧ y = i) := by
      intro x y
      rw [e4]
      by_cases hx : x = i
      · rw [if_pos hx, List.mem_append, List.mem_singleton]
        constructor
        · rintro (h | h)
          · exact .inl h
          · exact .inr (.inl ⟨hx, h⟩)
        · rintro (h | ⟨-, h⟩ | ⟨h, -⟩)
          · exact .inl h
          · exact .inr h
          · omega
      · rw [if_neg hx]
        by_cases hx2 : x = j
        · rw [if_pos hx2, List.mem_append, List.mem_singleton]
          constructor
          · rintro (h | h)
            · exact .inl h
            · exact .inr (.inr ⟨hx2, h⟩)
          · rintro (h | ⟨h, -⟩ | ⟨-, h⟩)
            · exact .inl h
            · exact absurd h hx
            · exact .inr h
        · rw [if_neg hx2]
          constructor
          · exact .inl
          · rintro (h | ⟨h, -⟩ | ⟨h, -⟩)
            · exact h
            · exact absurd h hx
            · exact absurd h hx2
    obtain ⟨o', h1, h2⟩ := ih (o := o1) (targets := targets.filter (fun x => decide (x ≠ j))) hT'
      (e2.trans ho) (fun k hk => by
        obtain ⟨a, b, c⟩ := hTi k (List.mem_cons_of_mem _ hk)
        refine ⟨a, List.mem_filter.2 ⟨b, ?_⟩, fun he => ?_⟩
        · rw [decide_eq_true_eq]
          rintro rfl
          exact hjT hk
        · obtain ⟨z, hz⟩ := List.exists_mem_of_ne_nil _ c
          have := (hmem k z).2 (.inl hz)
          rw [he] at this
          cases this)
    refine ⟨o', ?_, fun x y => ?_⟩
    · exact (scaleFreeLinks_some hc e1).trans h1
    · rw [h2, hmem, List.mem_cons, List.mem_cons]
      constructor
      · rintro ((h | ⟨h, h'⟩ | ⟨h, h'⟩) | ⟨h, h'⟩ | ⟨h, h'⟩)
        · exact .inl h
        · exact .inr (.inl ⟨h, .inl h'⟩)
        · exact .inr (.inr ⟨h', .inl h⟩)
        · exact .inr (.inl ⟨h, .inr h'⟩)
        · exact .inr (.inr ⟨h, .inr h'⟩)
      · rintro (h | ⟨h, h' | h'⟩ | ⟨h, h' | h'⟩)
        · exact .inl (.inl h)
        · exact .inl (.inr (.inl ⟨h, h'⟩))
        · exact .inr (.inl ⟨h, h'⟩)
        · exact .inl (.inr (.inr ⟨h', h⟩))
        · exact .inr (.inr ⟨h, h'⟩)

open Classical in
/-- The nodes below `x` to which `x` is linked. -/
noncomputable def linksBelow (E : ℕ → ℕ → Prop) (x : ℕ) : List ℕ :=
  (List.range x).filter (fun y => decide (E x y))

theorem mem_linksBelow {E : ℕ → ℕ → Prop} {x y : ℕ} : y ∈ linksBelow E x ↔ y < x ∧ E x y := by
  simp [linksBelow]

theorem nodup_linksBelow (E : ℕ → ℕ → Prop) (x : ℕ) : (linksBelow E x).Nodup :=
  List.nodup_range.filter _

theorem length_linksBelow (E : ℕ → ℕ → Prop) (x : ℕ) :
    (linksBelow E x).length = Set.ncard {y : ℕ | y < x ∧ E x y} := by
  rw [← List.toFinset_card_of_nodup (nodup_linksBelow E x), ← Set.ncard_coe_finset]
  congr 1
  ext y
  rw [Finset.mem_coe, List.mem_toFinset, mem_linksBelow]
  rfl

theorem scaleFree_scripted {E : ℕ → ℕ → Prop} {n m0 m : ℕ} (h2 : 2 ≤ m0) (h : m0 ≤ n) (hm : 1 ≤ m)
    (hmm : m ≤ m0) (hE : ScaleFreeLinks n m0 m E) :
    ∃ o s', Graph.newRandomScaleFree (scripted []) ((rangeFT m0 n).flatMap (linksBelow E) : List NodeId)
        n m0 m = .ok (⟨o⟩, s') ∧ ∀ x y, y ∈ row o x ↔ E x y := by
  obtain ⟨o, s', h1, h3⟩ := scaleFree_spec (scripted [])
    ((rangeFT m0 n).flatMap (linksBelow E) : List NodeId) h2 h hm hmm
  refine ⟨o, s', h1, ?_⟩
  obtain ⟨o0, g1, g2⟩ := SfInv.init (m := m) h2 h
  have hstart : ∀ x y, y ∈ row o0 x ↔ x < m0 ∧ y < m0 ∧ E x y := by
    intro x y
    constructor
    · intro hy
      have hy0 := g2.range x y hy
      have hx0 := g2.range y x (g2.symm x y hy)
      exact ⟨hx0, hy0, hE.first x hx0 y hy0 (fun e => g2.loop x (by rw [← e] at hy; exact hy))⟩
    · rintro ⟨hx, hy, h⟩
      exact g2.start x hx y hy (fun e => hE.loop x (by rw [← e] at h; exact h))
  obtain ⟨⟨o1, s1⟩, e1, -, e2, -⟩ := foldE_range
    (g := fun (st : List (List ℕ) × (scripted []).State) i =>
      Graph.scaleFreeLinks (scripted []) i m (st.1, rangeFT 0 i, st.2))
    (fun i st => SfInv n m0 m i st.1 ∧ (∀ x y, y ∈ row st.1 x ↔ x < i ∧ y < i ∧ E x y) ∧
      st.2 = ((rangeFT i n).flatMap (linksBelow E) : List NodeId)) h
    (b := (o0, ((rangeFT m0 n).flatMap (linksBelow E) : List NodeId)))
    ⟨g2, hstart, rfl⟩ (by
      rintro i ⟨b, s0⟩ hi1 hi2 ⟨hb1, hb2, hb3⟩
      dsimp only at hb1 hb2 hb3
      obtain ⟨b', s2, k1, k2⟩ := SfInv.node (R := scripted []) (s := s0) hi1 hi2 hm hmm hb1
      have hs0 : s0 = (linksBelow E i ++ (rangeFT (i + 1) n).flatMap (linksBelow E) : List NodeId) := by
        rw [hb3]
        have : rangeFT i n = i :: rangeFT (i + 1) n := by
          unfold rangeFT
          obtain ⟨k, hk⟩ : ∃ k, n - i = k + 1 := ⟨n - i - 1, by omega⟩
          rw [hk, List.range'_succ, show n - (i + 1) = k by omega]
        rw [this, List.flatMap_cons]
      obtain ⟨b'', k3, k4⟩ := scripted_links (p := []) hi2 (nodup_linksBelow E i)
        (rest := (rangeFT (i + 1) n).flatMap (linksBelow E)) (targets := rangeFT 0 i) hb1.length
        (fun j hj => by
          have hj' := (mem_linksBelow.1 hj).1
          exact ⟨hj', mem_rangeFT.2 ⟨Nat.zero_le _, hj'⟩, hb1.nonempty j hj'⟩)
      rw [length_linksBelow, hE.later i hi1 hi2, ← hs0] at k3
      rw [k3] at k1
      obtain ⟨rfl, rfl⟩ := Prod.mk.inj (Except.ok.inj k1)
      refine ⟨(b'', _), k3, k2, fun x y => ?_, rfl⟩
      rw [k4, hb2, mem_linksBelow, mem_linksBelow]
      constructor
      · rintro (⟨h1, h2, h3⟩ | ⟨rfl, h1, h3⟩ | ⟨rfl, h1, h3⟩)
        · exact ⟨by omega, by omega, h3⟩
        · exact ⟨by omega, by omega, h3⟩
        · exact ⟨by omega, by omega, hE.symm _ _ h3⟩
      · rintro ⟨h1, h2, h3⟩
        by_cases hx : x = i
        · subst hx
          have : y ≠ x := fun e => hE.loop x (e ▸ h3)
          exact .inr (.inl ⟨rfl, by omega, h3⟩)
        · by_cases hy : y = i
          · subst hy
            exact .inr (.inr ⟨rfl, by omega, hE.symm _ _ h3⟩)
          · exact .inl ⟨by omega, by omega, h3⟩)
  have : o1 = o := by
    unfold Graph.newRandomScaleFree at h1
    rw [if_pos ⟨hm, hmm, hmm.trans h⟩, g1] at h1
    dsimp only at h1
    rw [e1] at h1
    dsimp only at h1
    cases ha : Graph.assertUndirected ⟨o1⟩ with
    | error e => rw [ha] at h1; cases h1
    | ok g =>
      rw [ha] at h1
      obtain ⟨rfl, -⟩ := Prod.mk.inj (Except.ok.inj h1)
      unfold Graph.assertUndirected at ha
      split at ha
      · cases ha
      · exact congrArg Graph.outlinks (Except.ok.inj ha)
      · cases ha
  subst this
  intro x y
  rw [e2]
  exact ⟨fun h => h.2.2, fun h => ⟨(hE.range x y h).1, (hE.range x y h).2, h⟩⟩

end FA
