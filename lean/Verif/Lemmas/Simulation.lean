import Verif.SpecSimulation
import Verif.SpecRaw
import Verif.Lemmas.Loop
import Verif.Lemmas.Fbas

/-!
# Lemmas about the simulator
-/

namespace FA
open Spec
namespace Simulator
variable {R : Rand}

theorem hadChange_iff {c : ChangeEffect} : c.hadChange = true ↔ c = .change := by
  cases c <;> decide

theorem update_eq_change {c d : ChangeEffect} :
    c.update d = .change ↔ c = .change ∨ d = .change := by
  cases c <;> cases d <;> decide

/-- A successful round is a sequence of visits in the given order. -/
theorem roundLoop_spec {qsc : Qsc R} {order : List NodeId} {c c' : ChangeEffect}
    {sim sim' : Simulator R} (h : roundLoop qsc order (c, sim) = .ok (c', sim')) :
    ∃ vs, vs.map Prod.fst = order ∧ Visits qsc (sim.fbas, sim.rng) vs (sim'.fbas, sim'.rng) ∧
      sim'.events = sim.events ++ vs.map (fun p => Event.quorumSetChange p.1 p.2) ∧
      (c' = .change ↔ c = .change ∨ HadChange vs) := by
  induction order generalizing c sim with
  | nil =>
    rw [roundLoop] at h
    obtain ⟨rfl, rfl⟩ := Prod.mk.inj (Except.ok.inj h)
    exact ⟨[], rfl, .nil _, by simp, by simp [HadChange]⟩
  | cons x order ih =>
    rw [roundLoop] at h
    cases hq : qsc x (sim.fbas, sim.rng) with
    | error e => rw [hq] at h; cases h
    | ok r =>
      obtain ⟨d, f, s⟩ := r
      rw [hq] at h
      obtain ⟨vs, h1, h2, h3, h4⟩ := ih h
      refine ⟨(x, d) :: vs, by rw [List.map_cons, h1], .cons hq h2, ?_, ?_⟩
      · rw [h3]; simp [registerEvent]
      · rw [h4, update_eq_change]
        unfold HadChange
        constructor
        · rintro ((h | h) | ⟨y, hy⟩)
          · exact .inl h
          · exact .inr ⟨x, by rw [h]; exact List.mem_cons_self⟩
          · exact .inr ⟨y, List.mem_cons_of_mem _ hy⟩
        · rintro (h | ⟨y, hy⟩)
          · exact .inl (.inl h)
          · rcases List.mem_cons.1 hy with h | h
            · exact .inl (.inr (Prod.mk.inj h).2.symm)
            · exact .inr ⟨y, h⟩

theorem reevaluationLoop_spec {qsc : Qsc R} {remaining : ℕ} {stable : Bool} {next n k : ℕ}
    {order : List NodeId} (ho : order.Perm (List.range n)) {sim sim' : Simulator R}
    (h : reevaluationLoop qsc remaining stable next order sim = .ok (k, sim')) :
    ∃ rounds : List (List (NodeId × ChangeEffect)),
      k = next + rounds.length ∧ rounds.length ≤ remaining ∧
      (stable = true → rounds = []) ∧
      Rounds qsc n sim.fbas rounds sim'.fbas ∧
      (∀ r ∈ rounds.dropLast, HadChange r) ∧
      (rounds.length < remaining →
        (stable = true ∧ rounds = []) ∨ ∃ r, rounds.getLast? = some r ∧ ¬ HadChange r) ∧
      sim'.events = sim.events ++ rounds.flatMap roundEvents := by
  induction remaining generalizing stable next order sim with
  | zero =>
    rw [reevaluationLoop] at h
    obtain ⟨rfl, rfl⟩ := Prod.mk.inj (Except.ok.inj h)
    exact ⟨[], rfl, Nat.le_refl _, fun _ => rfl, .nil _, by simp, by simp, by simp⟩
  | succ remaining ih =>
    rw [reevaluationLoop] at h
    by_cases hs : stable = true
    · rw [if_pos hs] at h
      obtain ⟨rfl, rfl⟩ := Prod.mk.inj (Except.ok.inj h)
      exact ⟨[], rfl, Nat.zero_le _, fun _ => rfl, .nil _, by simp, fun _ => .inl ⟨hs, rfl⟩,
        by simp⟩
    · rw [if_neg hs] at h
      have hp := R.shuffle_perm sim.rng order
      dsimp only at h
      generalize R.shuffle sim.rng order = p at h hp
      obtain ⟨order', rng⟩ := p
      dsimp only at h hp
      cases hr : simulateGlobalReevaluationRound qsc order' { sim with rng } with
      | error e => rw [hr] at h; cases h
      | ok r =>
        obtain ⟨c, sim1⟩ := r
        rw [hr] at h
        obtain ⟨vs, h1, h2, h3, h4⟩ := roundLoop_spec hr
        obtain ⟨rs, g1, g2, g0, g3, g4, g5, g6⟩ := ih (hp.trans ho) h
        have hc : c.hadChange = true ↔ HadChange vs := by
          rw [hadChange_iff, h4]; simp
        refine ⟨vs :: rs, by rw [g1, List.length_cons]; omega, by
          rw [List.length_cons]; omega, fun h => absurd h hs, .cons (by rw [h1]; exact hp.trans ho) h2 g3, ?_, ?_, ?_⟩
        · intro r hr
          cases rs with
          | nil => simp at hr
          | cons r' rs =>
            rw [List.dropLast_cons_of_ne_nil (by simp)] at hr
            rcases List.mem_cons.1 hr with rfl | hr
            · rw [← hc]
              by_contra hn
              have := g0 (by simpa using hn)
              cases this
            · exact g4 r hr
        · intro hlt
          right
          rw [List.length_cons] at hlt
          rcases g5 (by omega) with ⟨hst, rfl⟩ | ⟨r, hr, hn⟩
          · refine ⟨vs, rfl, ?_⟩
            rw [← hc]; simpa using hst
          · refine ⟨r, ?_, hn⟩
            cases rs with
            | nil => cases hr
            | cons r' rs => rw [List.getLast?_cons_cons]; exact hr
        · rw [g6, h3]
          simp [registerEvent, roundEvents]

/-! ### No panics -/

/-- The configurator does not panic for existing nodes and keeps the number of nodes. -/
def Safe (qsc : Qsc R) : Prop := ∀ (f : Fbas) (s : R.State) (x : NodeId), x < f.nodes.length →
  ∃ c f' s', qsc x (f, s) = .ok (c, f', s') ∧ f'.nodes.length = f.nodes.length

theorem roundLoop_safe {qsc : Qsc R} (hq : Safe qsc) (order : List NodeId) (c : ChangeEffect)
    (sim : Simulator R) (ho : ∀ x ∈ order, x < sim.fbas.nodes.length) :
    ∃ c' sim', roundLoop qsc order (c, sim) = .ok (c', sim') ∧
      sim'.fbas.nodes.length = sim.fbas.nodes.length := by
  induction order generalizing c sim with
  | nil => exact ⟨c, sim, rfl, rfl⟩
  | cons x order ih =>
    obtain ⟨d, f', s', h1, h2⟩ := hq sim.fbas sim.rng x (ho x List.mem_cons_self)
    rw [roundLoop, h1]
    obtain ⟨c', sim', h3, h4⟩ := ih (c.update d)
      (({ sim with fbas := f', rng := s' } : Simulator R).registerEvent (.quorumSetChange x d))
      (fun y hy => by
        show y < f'.nodes.length
        rw [h2]; exact ho y (List.mem_cons_of_mem _ hy))
    exact ⟨c', sim', h3, h4.trans h2⟩

theorem reevaluationLoop_safe {qsc : Qsc R} (hq : Safe qsc) (remaining : ℕ) (stable : Bool)
    (next : ℕ) (order : List NodeId) (sim : Simulator R)
    (ho : ∀ x ∈ order, x < sim.fbas.nodes.length) :
    ∃ k sim', reevaluationLoop qsc remaining stable next order sim = .ok (k, sim') ∧
      sim'.fbas.nodes.length = sim.fbas.nodes.length := by
  induction remaining generalizing stable next order sim with
  | zero => exact ⟨next, sim, rfl, rfl⟩
  | succ remaining ih =>
    rw [reevaluationLoop]
    by_cases hs : stable = true
    · rw [if_pos hs]; exact ⟨next, sim, rfl, rfl⟩
    · rw [if_neg hs]
      have hp := R.shuffle_perm sim.rng order
      dsimp only
      generalize R.shuffle sim.rng order = p at hp ⊢
      obtain ⟨order', rng⟩ := p
      obtain ⟨c, sim1, h1, h2⟩ := roundLoop_safe hq order' .noChange
        (({ sim with rng } : Simulator R).registerEvent .startGlobalReevaluationRound)
        (fun x hx => ho x (hp.mem_iff.1 hx))
      have h1' : simulateGlobalReevaluationRound qsc order' { sim with rng } = .ok (c, sim1) := h1
      dsimp only
      rw [h1']
      obtain ⟨k, sim', h3, h4⟩ := ih (!c.hadChange) (next + 1) order' sim1
        (fun x hx => by rw [h2]; exact ho x (hp.mem_iff.1 hx))
      exact ⟨k, sim', h3, h4.trans h2⟩

theorem reevaluation_safe {qsc : Qsc R} (hq : Safe qsc) (max : ℕ) (sim : Simulator R) :
    ∃ k sim', simulateGlobalReevaluation qsc max sim = .ok (k, sim') ∧
      sim'.fbas.nodes.length = sim.fbas.nodes.length := by
  obtain ⟨k, sim', h1, h2⟩ := reevaluationLoop_safe hq max false 0
    (rangeFT 0 sim.fbas.nodes.length) (sim.registerEvent .startGlobalReevaluation)
    (fun x hx => (mem_rangeFT.1 hx).2)
  exact ⟨k, sim'.registerEvent (.finishGlobalReevaluation k), by
    unfold simulateGlobalReevaluation; dsimp only; rw [h1], h2⟩

/-! ### Configurators with a target configuration -/

/-- `f` and `f'` have the same nodes except for their quorum sets. -/
def SameNames (f f' : Fbas) : Prop :=
  f'.nodes.map Node.publicKey = f.nodes.map Node.publicKey ∧ f'.pkToId = f.pkToId

theorem SameNames.length {f f' : Fbas} (h : SameNames f f') :
    f'.nodes.length = f.nodes.length := by
  have := congrArg List.length h.1
  simpa using this

theorem SameNames.trans {f f' f'' : Fbas} (h : SameNames f f') (h' : SameNames f' f'') :
    SameNames f f'' := ⟨h'.1.trans h.1, h'.2.trans h.2⟩

theorem SameNames.registry {f f' : Fbas} (h : SameNames f f') (hf : RegistryOk f) :
    RegistryOk f' := by
  intro pk i
  have hk := hf pk i
  unfold Fbas.getNodeId at hk ⊢
  rw [h.2, hk]
  have : f'.nodes[i]?.map Node.publicKey = f.nodes[i]?.map Node.publicKey := by
    rw [← List.getElem?_map, ← List.getElem?_map, h.1]
  constructor
  · rintro ⟨n, hn, hp⟩
    rw [hn] at this
    cases hc : f'.nodes[i]? with
    | none => rw [hc] at this; cases this
    | some n' =>
      rw [hc] at this
      exact ⟨n', rfl, (Option.some.inj this).trans hp⟩
  · rintro ⟨n, hn, hp⟩
    rw [hn] at this
    cases hc : f.nodes[i]? with
    | none => rw [hc] at this; cases this
    | some n' =>
      rw [hc] at this
      exact ⟨n', rfl, (Option.some.inj this).symm.trans hp⟩

theorem swap_spec {f : Fbas} {x : NodeId} (hx : x < f.nodes.length) (q : QuorumSet) :
    ∃ f', Qsc.setQuorumSet f x q = .ok f' ∧ SameNames f f' ∧
      ∀ y, f'.getQuorumSet y = if y = x then some q else f.getQuorumSet y := by
  refine ⟨{ f with nodes := f.nodes.set x { f.nodes[x] with quorumSet := q } }, ?_, ⟨?_, rfl⟩, ?_⟩
  · unfold Qsc.setQuorumSet Fbas.swapQuorumSet
    rw [List.getElem?_eq_getElem hx]; rfl
  · dsimp only
    rw [List.map_set]
    apply List.ext_getElem?
    intro i
    by_cases hi : i = x
    · subst hi; rw [List.getElem?_set_self (by simpa using hx)]; simp [hx]
    · rw [List.getElem?_set_ne (fun h => hi h.symm)]
  · intro y
    unfold Fbas.getQuorumSet
    by_cases hy : y = x
    · subst hy; simp [hx]
    · rw [List.getElem?_set_ne (fun h => hy h.symm)]; simp [hy]

theorem existing_ok {f : Fbas} {x : NodeId} (hx : x < f.nodes.length) :
    ∃ q, Qsc.existing f x = .ok q ∧ f.getQuorumSet x = some q := by
  refine ⟨f.nodes[x].quorumSet, ?_, ?_⟩ <;>
    simp [Qsc.existing, Fbas.getQuorumSet, List.getElem?_eq_getElem hx]

theorem replace_spec {f : Fbas} {s : R.State} {x : NodeId} (hx : x < f.nodes.length)
    (q : QuorumSet) :
    ∃ c f', Qsc.replaceIfDifferent R q x (f, s) = .ok (c, f', s) ∧ SameNames f f' ∧
      (∀ y, f'.getQuorumSet y = if y = x then some q else f.getQuorumSet y) ∧
      (c = .change ↔ f.getQuorumSet x ≠ some q) ∧ (c = .noChange → f' = f) := by
  obtain ⟨q0, h1, h2⟩ := existing_ok hx
  unfold Qsc.replaceIfDifferent
  dsimp only
  rw [h1]
  dsimp only
  by_cases hq : q = q0
  · rw [if_pos hq]
    refine ⟨.noChange, f, rfl, ⟨rfl, rfl⟩, fun y => ?_, ?_, fun _ => rfl⟩
    · split
      · rename_i h; rw [h, h2, hq]
      · rfl
    · rw [h2, hq]; simp
  · rw [if_neg hq]
    obtain ⟨f', g1, g2, g3⟩ := swap_spec hx q
    rw [g1]
    refine ⟨.change, f', rfl, g2, g3, ?_, by simp⟩
    rw [h2]; simp; exact fun h => hq h.symm

/-- A configurator that gives every node the target configuration `cand n`, which depends only on
the number of nodes. -/
def Targets (qsc : Qsc R) (cand : ℕ → QuorumSet) : Prop :=
  ∀ x st, qsc x st = Qsc.replaceIfDifferent R (cand st.1.nodes.length) x st

theorem Targets.safe {qsc : Qsc R} {cand : ℕ → QuorumSet} (h : Targets qsc cand) : Safe qsc := by
  intro f s x hx
  rw [h]
  obtain ⟨c, f', h1, h2, -⟩ := replace_spec (s := s) hx (cand f.nodes.length)
  exact ⟨c, f', s, h1, h2.length⟩

theorem roundLoop_targets {qsc : Qsc R} {cand : ℕ → QuorumSet} (hq : Targets qsc cand)
    {order : List NodeId} {c c' : ChangeEffect} {sim sim' : Simulator R}
    (ho : ∀ x ∈ order, x < sim.fbas.nodes.length)
    (h : roundLoop qsc order (c, sim) = .ok (c', sim')) :
    SameNames sim.fbas sim'.fbas ∧
      (∀ y, sim'.fbas.getQuorumSet y =
        if y ∈ order then some (cand sim.fbas.nodes.length) else sim.fbas.getQuorumSet y) ∧
      ((∀ y ∈ order, sim.fbas.getQuorumSet y = some (cand sim.fbas.nodes.length)) →
        c' = c ∧ sim'.fbas = sim.fbas) := by
  induction order generalizing c sim with
  | nil =>
    rw [roundLoop] at h
    obtain ⟨rfl, rfl⟩ := Prod.mk.inj (Except.ok.inj h)
    exact ⟨⟨rfl, rfl⟩, by simp, fun _ => ⟨rfl, rfl⟩⟩
  | cons x order ih =>
    obtain ⟨d, f', h1, h2, h3, h4, h5⟩ := replace_spec (s := sim.rng)
      (ho x List.mem_cons_self) (cand sim.fbas.nodes.length)
    rw [roundLoop, hq] at h
    dsimp only at h
    rw [h1] at h
    dsimp only at h
    obtain ⟨g1, g2, g3⟩ := ih (fun y hy => by
      show y < f'.nodes.length
      rw [h2.length]; exact ho y (List.mem_cons_of_mem _ hy)) h
    dsimp only [registerEvent] at g1 g2 g3
    rw [h2.length] at g2 g3
    refine ⟨h2.trans g1, fun y => ?_, fun hall => ?_⟩
    · rw [g2, h3]
      by_cases hy : y ∈ order
      · simp [hy]
      · by_cases hyx : y = x <;> simp [hy, hyx]
    · have hd : d = .noChange := by
        cases d with
        | noChange => rfl
        | change => exact absurd (hall x List.mem_cons_self) (h4.1 rfl)
      have hf := h5 hd
      subst hf
      subst hd
      obtain ⟨e1, e2⟩ := g3 (fun y hy => hall y (List.mem_cons_of_mem _ hy))
      refine ⟨?_, e2⟩
      rw [e1]; cases c <;> rfl

theorem getQuorumSet_iff {f : Fbas} {x : NodeId} {q : QuorumSet} :
    f.getQuorumSet x = some q ↔ HasQSet f x q := by
  unfold Fbas.getQuorumSet HasQSet
  cases h : f.nodes[x]? <;> simp

theorem reevaluation_targets {qsc : Qsc R} {cand : ℕ → QuorumSet} (hq : Targets qsc cand)
    {max : ℕ} (hmax : 1 ≤ max) (sim : Simulator R) :
    ∃ k sim', simulateGlobalReevaluation qsc max sim = .ok (k, sim') ∧ k ≤ 2 ∧
      SameNames sim.fbas sim'.fbas ∧ AllHave sim'.fbas (cand sim.fbas.nodes.length) := by
  -- a round started with a permutation of all nodes
  have hround : ∀ (order : List NodeId) (sim : Simulator R),
      order.Perm (List.range sim.fbas.nodes.length) →
      ∃ c sim', simulateGlobalReevaluationRound qsc order sim = .ok (c, sim') ∧
        SameNames sim.fbas sim'.fbas ∧ AllHave sim'.fbas (cand sim.fbas.nodes.length) ∧
        (AllHave sim.fbas (cand sim.fbas.nodes.length) → c = .noChange ∧ sim'.fbas = sim.fbas) := by
    intro order sim ho
    have hin : ∀ x ∈ order, x < sim.fbas.nodes.length := fun x hx =>
      List.mem_range.1 (ho.mem_iff.1 hx)
    obtain ⟨c, sim', h1, h2⟩ := roundLoop_safe hq.safe order .noChange
      (sim.registerEvent .startGlobalReevaluationRound) hin
    obtain ⟨g1, g2, g3⟩ := roundLoop_targets hq
      (sim := sim.registerEvent .startGlobalReevaluationRound) hin h1
    dsimp only [registerEvent] at g1 g2 g3
    refine ⟨c, sim', h1, g1, fun x hx => ?_, fun hall => g3 (fun y hy => ?_)⟩
    · rw [g1.length] at hx
      rw [← getQuorumSet_iff, g2, if_pos (ho.mem_iff.2 (List.mem_range.2 hx))]
    · rw [getQuorumSet_iff]; exact hall y (hin y hy)
  obtain ⟨m, rfl⟩ : ∃ m, max = m + 1 := ⟨max - 1, by omega⟩
  set sim0 := sim.registerEvent .startGlobalReevaluation with hsim0
  have hf0 : sim0.fbas = sim.fbas := rfl
  have hp := R.shuffle_perm sim0.rng (List.range sim.fbas.nodes.length)
  unfold simulateGlobalReevaluation
  dsimp only
  rw [← hsim0, reevaluationLoop, rangeFT_zero]
  dsimp only
  rw [if_neg (by simp)]
  generalize R.shuffle sim0.rng (List.range sim.fbas.nodes.length) = p at hp ⊢
  obtain ⟨order1, rng1⟩ := p
  obtain ⟨c1, sim1, h1, h2, h3, -⟩ := hround order1 { sim0 with rng := rng1 } hp
  dsimp only at h1 h2 h3 ⊢
  rw [h1]
  dsimp only
  rw [hf0] at h2 h3
  -- later rounds
  cases m with
  | zero =>
    rw [reevaluationLoop]
    exact ⟨_, _, rfl, by omega, h2, h3⟩
  | succ m =>
    rw [reevaluationLoop]
    by_cases hs : (!c1.hadChange) = true
    · rw [if_pos hs]
      exact ⟨_, _, rfl, by omega, h2, h3⟩
    · rw [if_neg hs]
      have hp2 := R.shuffle_perm sim1.rng order1
      dsimp only
      generalize R.shuffle sim1.rng order1 = p at hp2 ⊢
      obtain ⟨order2, rng2⟩ := p
      obtain ⟨c2, sim2, e1, e2, e3, e4⟩ := hround order2 { sim1 with rng := rng2 } (by
        show order2.Perm (List.range sim1.fbas.nodes.length)
        rw [h2.length]; exact hp2.trans hp)
      dsimp only at e1 e2 e3 e4 ⊢
      rw [e1]
      dsimp only
      rw [h2.length] at e3 e4
      obtain ⟨rfl, e6⟩ := e4 h3
      cases m with
      | zero => rw [reevaluationLoop]; exact ⟨_, _, rfl, by omega, h2.trans e2, e3⟩
      | succ m =>
        rw [reevaluationLoop, if_pos (by decide)]
        exact ⟨_, _, rfl, by omega, h2.trans e2, e3⟩

end Simulator
end FA
