import Verif.Lemmas.FrontEnd
import Verif.Lemmas.Nonintersecting

/-!
# Sequences of calls on an `Analysis` object
-/

namespace FA
open Spec Analysis

/-- The sets of `p` only contain shrunken IDs. -/
structure Params.Good (p : Params) : Prop where
  Q : ∀ S ∈ p.Q, S ⊆ Finset.range p.K.card
  B : ∀ S ∈ p.B, S ⊆ Finset.range p.K.card
  S : ∀ S ∈ p.S, S ⊆ Finset.range p.K.card

theorem split_subset {env : Env} {f : Fbas} (hwf : WF f) {Q S : List NodeSet}
    (h : (if verdictOf Q = true then findMinimalSplittingSets env f Q else .ok [∅]) = .ok S)
    {T : NodeSet} (hT : T ∈ S) : T ⊆ f.allNodes := by
  split at h
  · exact findMinimalSplittingSets_subset env hwf h hT
  · rw [← Except.ok.inj h, List.mem_singleton] at hT
    rw [hT]; simp

section
variable {env : Env} {f fR : Fbas} {p : Params} {a : Analysis}

theorem ModeQ.good (h : ModeQ env f fR p) : p.Good := by
  refine ⟨?_, ?_, ?_⟩
  · obtain ⟨QR, _, _, hQ⟩ := h.QR
    intro S hS
    rw [hQ, List.mem_map] at hS
    obtain ⟨T, _, rfl⟩ := hS
    exact shrSet_subset _ _
  · intro S hS
    rw [← h.is.subset]
    exact findMinimalBlockingSets_subset env h.is.wf h.B hS
  · intro S hS
    rw [← h.is.subset]
    exact split_subset h.is.wf h.split hS

theorem ModeB.good (h : ModeB env f fR p) : p.Good := by
  refine ⟨?_, ?_, ?_⟩
  · intro S hS
    obtain ⟨L, h1, h2, _⟩ := findMinimalQuorums_spec env h.is.wf
    rw [h.Q] at h1
    rw [Except.ok.inj h1, h2] at hS
    exact h.is.quorum_subset hS.prop
  · obtain ⟨QR, _, _, hQ⟩ := h.BR
    intro S hS
    rw [hQ, List.mem_map] at hS
    obtain ⟨T, _, rfl⟩ := hS
    exact shrSet_subset _ _
  · intro S hS
    rw [← h.is.subset]
    exact split_subset h.is.wf h.split hS

/-- Calls that do not change the object. -/
def Passive (c : Call) : Prop :=
  c ≠ .hasQuorumIntersection ∧ c ≠ .minimalQuorums ∧ c ≠ .minimalBlockingSets ∧
    c ≠ .minimalSplittingSets ∧ c ≠ .topTier

/-- Calls whose answer only depends on the original FBAS. -/
def Static (c : Call) : Prop := Passive c ∧ c ≠ .alternativeCheck

theorem call_static (env : Env) (f : Fbas) {c : Call} (hc : Static c) :
    ∃ ans, ∀ a : Analysis, a.fbasOriginal = f → a.call env c = .ok (ans, a) := by
  obtain ⟨⟨h1, h2, h3, h4, h5⟩, h6⟩ := hc
  cases c with
  | allNodes => exact ⟨.set f.allNodes, fun a ha => by subst ha; rfl⟩
  | satisfiableNodes => exact ⟨.set f.satisfiableNodes, fun a ha => by subst ha; rfl⟩
  | unsatisfiableNodes => exact ⟨.set f.unsatisfiableNodes, fun a ha => by subst ha; rfl⟩
  | symmetricTopTier =>
    have : ∃ q, findSymmetricTopTier env f = .ok q := by
      have hc : ∃ l, findSymmetricClusters env f = .ok l := ⟨_, rfl⟩
      obtain ⟨l, hl⟩ := hc
      rw [findSymmetricTopTier, hl]
      rcases l with _ | ⟨q, _ | ⟨q', l⟩⟩ <;> exact ⟨_, rfl⟩
    obtain ⟨q, hq⟩ := this
    refine ⟨.qset q, fun a ha => ?_⟩
    subst ha
    show (findSymmetricTopTier env a.fbasOriginal).map (fun q => (Answer.qset q, a)) = _
    rw [hq]; rfl
  | symmetricClusters =>
    have hc : ∃ l, findSymmetricClusters env f = .ok l := ⟨_, rfl⟩
    obtain ⟨l, hl⟩ := hc
    refine ⟨.qsets l, fun a ha => ?_⟩
    subst ha
    show (findSymmetricClusters env a.fbasOriginal).map (fun q => (Answer.qsets q, a)) = _
    rw [hl]; rfl
  | hasQuorumIntersection => exact absurd rfl h1
  | minimalQuorums => exact absurd rfl h2
  | minimalBlockingSets => exact absurd rfl h3
  | minimalSplittingSets => exact absurd rfl h4
  | topTier => exact absurd rfl h5
  | alternativeCheck => exact absurd rfl h6

theorem unwrap_shrunken {a : Analysis} {K : NodeSet} {l : List NodeSet}
    (ha : a.shrinkManager = ShrinkManager.new K) (hl : ∀ S ∈ l, S ⊆ Finset.range K.card) :
    (a.makeShrunkenSetVecResult l).unwrap = .ok (l.map (unSet K)) := by
  simp only [makeShrunkenSetVecResult, SetVecResult.new, SetVecResult.unwrap,
    SetVecResult.unshrink, ha, Option.map_some, unshrinkSets_ok hl]

theorem alternativeCheck_same {a a' : Analysis} {ans : Answer}
    (h : a.call env .alternativeCheck = .ok (ans, a')) : a' = a := by
  simp only [Analysis.call] at h
  split at h
  · cases h
  · cases h; rfl
  · split at h
    · cases h
    · cases h; rfl

theorem alternativeCheck_error {a : Analysis} (hsm : a.shrinkManager = ShrinkManager.new p.K)
    (hfs : IsShrunken f p.K a.fbasShrunken) :
    (¬ (∃ Q, IsQuorum a.fbasShrunken Q) ∧ a.call env .alternativeCheck = .error .assertion) ∨
    (∃ l, a.call env .alternativeCheck = .ok (.verdict false (some l), a) ∧ 2 ≤ l.length ∧
      l.Pairwise Disjoint ∧ ∀ S ∈ l, IsQuorum f S) ∨
    ((∃ Q, IsQuorum a.fbasShrunken Q) ∧
      a.call env .alternativeCheck = .ok (.verdict true none, a) ∧
      ∀ P Q, IsQuorum a.fbasShrunken P → IsQuorum a.fbasShrunken Q → ¬ Disjoint P Q) := by
  rcases findNonintersectingQuorums_spec env hfs.wf with ⟨h1, h2⟩ | ⟨L, h1, h2, h3, h4⟩ | ⟨h1, h2, h3⟩
  · left
    refine ⟨h1, ?_⟩
    simp only [Analysis.call, Analysis.alternativeCheck, h2]
  · right; left
    have hsub : ∀ S ∈ L, S ⊆ Finset.range p.K.card := fun S hS => hfs.quorum_subset (h4 S hS)
    refine ⟨L.map (unSet p.K), ?_, by simpa using h2, ?_, ?_⟩
    · simp only [Analysis.call, Analysis.alternativeCheck, h1]
      match L, h2, h3, hsub with
      | P :: Q :: L, _, h3, hsub =>
        have hd : Disjoint P Q := by
          rw [List.pairwise_cons] at h3
          exact h3.1 Q List.mem_cons_self
        simp only [List.getElem?_cons_zero, List.getElem?_cons_succ, if_pos hd]
        rw [unwrap_shrunken hsm hsub]
    · rw [List.pairwise_map]
      refine List.Pairwise.imp_of_mem ?_ h3
      intro P Q hP hQ hd
      rw [Finset.disjoint_left] at hd ⊢
      intro x hxP hxQ
      obtain ⟨i, hi, rfl⟩ := Finset.mem_image.1 hxP
      exact hd hi ((un_mem_unSet (hsub Q hQ) (Finset.mem_range.1 (hsub P hP hi))).1 hxQ)
    · intro S hS
      obtain ⟨T, hT, rfl⟩ := List.mem_map.1 hS
      exact (hfs.isQuorum (hsub T hT)).1 (h4 T hT)
  · right; right
    refine ⟨h1, ?_, h3⟩
    simp only [Analysis.call, Analysis.alternativeCheck, h2]

/-- The answers given by an object with the values `p`. -/
def answerOf (p : Params) : Call → Option Answer
  | .hasQuorumIntersection => some (.bool (verdictOf p.Q))
  | .minimalQuorums => some (.sets (p.Q.map (unSet p.K)))
  | .minimalBlockingSets => some (.sets (p.B.map (unSet p.K)))
  | .minimalSplittingSets => some (.sets (p.S.map (unSet p.K)))
  | .topTier => some (.set (unSet p.K (involvedNodes p.Q)))
  | _ => none

theorem call_topTier {a a' : Analysis} {V K : NodeSet} (h : topTierShrunken env depth free a = .ok (V, a'))
    (ha : a'.shrinkManager = ShrinkManager.new K) (hV : V ⊆ Finset.range K.card) :
    a.call env .topTier = .ok (.set (unSet K V), a') := by
  simp only [Analysis.call, Analysis.topTier, h, makeShrunkenSetResult, SetResult.new, ha,
    unshrinkSet_ok hV]
  rfl

/-- Active calls on a shrunken object. -/
theorem At.call (h : At env f p a) (hg : p.Good) {c : Call} {ans : Answer}
    (hans : answerOf p c = some ans) :
    ∃ a', At env f p a' ∧ (a.mq ≠ none → a'.mq ≠ none) ∧ (a.call env c = .ok (ans, a') ∨
      (c = .topTier ∧ a.mq = none ∧
        a.call env c = .ok (.set (unSet p.K (involvedNodes p.B)), a'))) := by
  cases c with
  | hasQuorumIntersection =>
    obtain ⟨a', h1, h2, h3⟩ := h.hqi' free
    refine ⟨a', h2, h3, .inl ?_⟩
    rw [← Option.some.inj hans]
    simp only [Analysis.call, Analysis.hasQuorumIntersection, h1]
    rfl
  | minimalQuorums =>
    obtain ⟨a', h1, h2, h3⟩ := h.mqs 7 free
    refine ⟨a', h2, fun _ => by simp [h3], .inl ?_⟩
    rw [← Option.some.inj hans]
    simp only [Analysis.call, Analysis.minimalQuorums, answerSets, show depth = 7 + 1 from rfl, h1,
      unwrap_shrunken h2.sm hg.Q]
  | minimalBlockingSets =>
    obtain ⟨a', h1, h2, h3⟩ := h.mbs' 7 free
    refine ⟨a', h2, fun h => h3 ▸ h, .inl ?_⟩
    rw [← Option.some.inj hans]
    simp only [Analysis.call, Analysis.minimalBlockingSets, answerSets,
      show depth = 7 + 1 from rfl, h1, unwrap_shrunken h2.sm hg.B]
  | minimalSplittingSets =>
    obtain ⟨a', h1, h2, h3⟩ := h.mss' free
    refine ⟨a', h2, fun _ => h3, .inl ?_⟩
    rw [← Option.some.inj hans]
    simp only [Analysis.call, Analysis.minimalSplittingSets, answerSets, h1,
      unwrap_shrunken h2.sm hg.S]
  | topTier =>
    obtain ⟨a', h1, h2, h3⟩ := h.topTier 6 free
    refine ⟨a', h1, h2, ?_⟩
    rw [← Option.some.inj hans]
    rcases h3 with h3 | ⟨h3, h4⟩
    · exact .inl (call_topTier h3 h1.sm (unionAll_subset.2 hg.Q))
    · exact .inr ⟨rfl, h3, call_topTier h4 h1.sm (unionAll_subset.2 hg.B)⟩
  | allNodes => cases hans
  | satisfiableNodes => cases hans
  | unsatisfiableNodes => cases hans
  | alternativeCheck => cases hans
  | symmetricTopTier => cases hans
  | symmetricClusters => cases hans

/-- Active calls other than `minimal_blocking_sets` on a new object. -/
theorem Start.call (h : Start env f fR a) (hR : IsShrunken f (f.relevantNodes env) fR)
    (hp : ModeQ env f fR p) {c : Call} {ans : Answer}
    (hans : answerOf p c = some ans) (hc : c ≠ .minimalBlockingSets) :
    ∃ a', At env f p a' ∧ a'.mq ≠ none ∧ a.call env c = .ok (ans, a') := by
  cases c with
  | hasQuorumIntersection =>
    obtain ⟨a', h1, h2, h3⟩ := h.hqi hR hp
    refine ⟨a', h2, by simp [h3], ?_⟩
    rw [← Option.some.inj hans]
    simp only [Analysis.call, Analysis.hasQuorumIntersection, h1]
    rfl
  | minimalQuorums =>
    obtain ⟨a', h1, h2, h3⟩ := h.mqs hR hp 4
    refine ⟨a', h2, by simp [h3], ?_⟩
    rw [← Option.some.inj hans]
    simp only [Analysis.call, Analysis.minimalQuorums, answerSets, show depth = 4 + 4 from rfl, h1,
      unwrap_shrunken h2.sm hp.good.Q]
  | minimalBlockingSets => exact absurd rfl hc
  | minimalSplittingSets =>
    obtain ⟨a', h1, h2, h3⟩ := h.mss hR hp
    refine ⟨a', h2, h3, ?_⟩
    rw [← Option.some.inj hans]
    simp only [Analysis.call, Analysis.minimalSplittingSets, answerSets, h1,
      unwrap_shrunken h2.sm hp.good.S]
  | topTier =>
    obtain ⟨a', h1, h2, h3⟩ := h.topTier hR hp 3
    refine ⟨a', h2, by simp [h3], ?_⟩
    rw [← Option.some.inj hans]
    exact call_topTier h1 h2.sm (unionAll_subset.2 hp.good.Q)
  | allNodes => cases hans
  | satisfiableNodes => cases hans
  | unsatisfiableNodes => cases hans
  | alternativeCheck => cases hans
  | symmetricTopTier => cases hans
  | symmetricClusters => cases hans

theorem Start.call_blocking (h : Start env f fR a) (hR : IsShrunken f (f.relevantNodes env) fR)
    (hp : ModeB env f fR p) :
    ∃ a', At env f p a' ∧ a.call env .minimalBlockingSets = .ok (.sets (p.B.map (unSet p.K)), a') := by
  obtain ⟨a', h1, h2⟩ := h.mbs hR hp 4
  refine ⟨a', h2, ?_⟩
  simp only [Analysis.call, Analysis.minimalBlockingSets, answerSets, show depth = 4 + 4 from rfl,
    h1, unwrap_shrunken h2.sm hp.good.B]

theorem call_cases (c : Call) :
    Static c ∨ c = .alternativeCheck ∨ ∀ p, ∃ ans, answerOf p c = some ans := by
  cases c <;> simp [Static, Passive, answerOf]

theorem start_new (env : Env) (f : Fbas) : ∃ fR a, Analysis.new env f = .ok a ∧
    IsShrunken f (f.relevantNodes env) fR ∧ Start env f fR a := by
  obtain ⟨fR, h1, h2⟩ := f.shrunken_ok (f.relevantNodes env)
  exact ⟨fR, _, by simp only [Analysis.new, h1], h2, rfl⟩

/-! ### Reachable states -/

/-- The history makes the object compute blocking sets before quorums. -/
def BlockingFirst (history : List Call) : Prop :=
  ∃ pre post, history = pre ++ .minimalBlockingSets :: post ∧ ∀ c ∈ pre, Passive c

/-- Reachable states, where `pq` and `pb` are the values for the two modes. -/
def Reach (env : Env) (f fR : Fbas) (pq pb : Params) (a : Analysis) : Prop :=
  Start env f fR a ∨ (At env f pq a ∧ a.mq ≠ none) ∨ At env f pb a

/-- ... without computing blocking sets first. -/
def ReachQ (env : Env) (f fR : Fbas) (pq : Params) (a : Analysis) : Prop :=
  Start env f fR a ∨ (At env f pq a ∧ a.mq ≠ none)

variable {pq pb : Params}

theorem Reach.orig (h : Reach env f fR pq pb a) : a.fbasOriginal = f := by
  rcases h with h | ⟨h, _⟩ | h
  · rw [h]
  · exact h.orig
  · exact h.orig

theorem Reach.call (hR : IsShrunken f (f.relevantNodes env) fR)
    (hq : ModeQ env f fR pq) (hb : ModeB env f fR pb)
    (h : Reach env f fR pq pb a) {c : Call} (hc : c ≠ .alternativeCheck) :
    ∃ ans a', a.call env c = .ok (ans, a') ∧ Reach env f fR pq pb a' := by
  rcases call_cases c with hs | rfl | ha
  · obtain ⟨ans, hans⟩ := call_static env f hs
    exact ⟨ans, a, hans a h.orig, h⟩
  · exact absurd rfl hc
  · rcases h with h | ⟨h, hk⟩ | h
    · by_cases hbl : c = .minimalBlockingSets
      · subst hbl
        obtain ⟨a', h1, h2⟩ := h.call_blocking hR hb
        exact ⟨_, a', h2, .inr (.inr h1)⟩
      · obtain ⟨ans, hans⟩ := ha pq
        obtain ⟨a', h1, h2, h3⟩ := h.call hR hq hans hbl
        exact ⟨_, a', h3, .inr (.inl ⟨h1, h2⟩)⟩
    · obtain ⟨ans, hans⟩ := ha pq
      obtain ⟨a', h1, h2, h3 | ⟨_, _, h3⟩⟩ := h.call hq.good hans
      · exact ⟨_, a', h3, .inr (.inl ⟨h1, h2 hk⟩)⟩
      · exact ⟨_, a', h3, .inr (.inl ⟨h1, h2 hk⟩)⟩
    · obtain ⟨ans, hans⟩ := ha pb
      obtain ⟨a', h1, h2, h3 | ⟨_, _, h3⟩⟩ := h.call hb.good hans
      · exact ⟨_, a', h3, .inr (.inr h1)⟩
      · exact ⟨_, a', h3, .inr (.inr h1)⟩

theorem Reach.shrunken (hR : IsShrunken f (f.relevantNodes env) fR)
    (hq : ModeQ env f fR pq) (hb : ModeB env f fR pb)
    (h : Reach env f fR pq pb a) : ∃ K, (K = f.relevantNodes env ∨ K = pq.K ∨ K = pb.K) ∧
      a.shrinkManager = ShrinkManager.new K ∧ IsShrunken f K a.fbasShrunken := by
  rcases h with h | ⟨h, _⟩ | h
  · exact ⟨_, .inl rfl, by rw [h], by rw [h]; exact hR⟩
  · exact ⟨_, .inr (.inl rfl), h.sm, h.fs ▸ hq.is⟩
  · exact ⟨_, .inr (.inr rfl), h.sm, h.fs ▸ hb.is⟩

/-- Sequences of calls end in a reachable state, unless the alternative check panics. -/
theorem Reach.calls (hR : IsShrunken f (f.relevantNodes env) fR)
    (hq : ModeQ env f fR pq) (hb : ModeB env f fR pb)
    (h : Reach env f fR pq pb a) (history : List Call) :
    (∃ a', calls env history a = .ok a' ∧ Reach env f fR pq pb a') ∨
      (.alternativeCheck ∈ history ∧ calls env history a = .error .assertion) := by
  induction history generalizing a with
  | nil => exact .inl ⟨a, rfl, h⟩
  | cons c cs ih =>
    rw [Analysis.calls]
    by_cases hc : c = .alternativeCheck
    · subst hc
      obtain ⟨K, _, hsm, hfs⟩ := h.shrunken hR hq hb
      rcases alternativeCheck_error (env := env) (p := ⟨K, fR, [], [], []⟩) hsm hfs
        with ⟨_, h1⟩ | ⟨l, h1, _⟩ | ⟨_, h1, _⟩
      · rw [h1]; exact .inr ⟨List.mem_cons_self, rfl⟩
      · rw [h1]
        exact (ih h).imp id (fun ⟨h1, h2⟩ => ⟨List.mem_cons_of_mem _ h1, h2⟩)
      · rw [h1]
        exact (ih h).imp id (fun ⟨h1, h2⟩ => ⟨List.mem_cons_of_mem _ h1, h2⟩)
    · obtain ⟨ans, a', h1, h2⟩ := h.call hR hq hb hc
      rw [h1]
      exact (ih h2).imp id (fun ⟨h1, h2⟩ => ⟨List.mem_cons_of_mem _ h1, h2⟩)

theorem blockingFirst_cons {c : Call} {cs : List Call} :
    BlockingFirst (c :: cs) ↔ c = .minimalBlockingSets ∨ (Passive c ∧ BlockingFirst cs) := by
  constructor
  · rintro ⟨pre, post, h, hpre⟩
    cases pre with
    | nil => simp at h; exact .inl h.1
    | cons d pre =>
      simp only [List.cons_append, List.cons.injEq] at h
      exact .inr ⟨h.1 ▸ hpre d List.mem_cons_self, pre, post, h.2,
        fun c hc => hpre c (List.mem_cons_of_mem _ hc)⟩
  · rintro (rfl | ⟨h, pre, post, rfl, hpre⟩)
    · exact ⟨[], cs, rfl, by simp⟩
    · exact ⟨c :: pre, post, rfl, fun d hd => (List.mem_cons.1 hd).elim (· ▸ h) (hpre d)⟩

/-- Without computing blocking sets first, the mode is `pq`. -/
theorem reachQ_calls (hR : IsShrunken f (f.relevantNodes env) fR)
    (hq : ModeQ env f fR pq) (history : List Call) {a a' : Analysis}
    (h : ReachQ env f fR pq a) (hf : Start env f fR a → ¬ BlockingFirst history)
    (hc : calls env history a = .ok a') :
    ReachQ env f fR pq a' ∧ (Start env f fR a' → Start env f fR a ∧ ∀ c ∈ history, Passive c) := by
  induction history generalizing a with
  | nil =>
    rw [Analysis.calls] at hc
    rw [← Except.ok.inj hc]
    exact ⟨h, fun h' => ⟨h', by simp⟩⟩
  | cons c cs ih =>
    rw [Analysis.calls] at hc
    split at hc
    · cases hc
    next ans a₁ h₁ =>
      by_cases hpas : Passive c
      · have ha₁ : a₁ = a := by
          by_cases halt : c = .alternativeCheck
          · subst halt
            exact alternativeCheck_same h₁
          · have horig : a.fbasOriginal = f := by
              rcases h with h | ⟨h, _⟩
              · rw [h]
              · exact h.orig
            obtain ⟨ans', hans⟩ := call_static env f ⟨hpas, halt⟩
            rw [hans a horig] at h₁
            exact (congrArg Prod.snd (Except.ok.inj h₁)).symm
        subst ha₁
        obtain ⟨h2, h3⟩ := ih h (fun hs hbf => hf hs (blockingFirst_cons.2 (.inr ⟨hpas, hbf⟩))) hc
        refine ⟨h2, fun h' => ⟨(h3 h').1, fun d hd => ?_⟩⟩
        exact (List.mem_cons.1 hd).elim (· ▸ hpas) ((h3 h').2 d)
      · have hact : ∀ p, ∃ ans, answerOf p c = some ans := by
          rcases call_cases c with hs | rfl | ha
          · exact absurd hs.1 hpas
          · exact absurd (by simp [Passive]) hpas
          · exact ha
        have hat : At env f pq a₁ ∧ a₁.mq ≠ none := by
          obtain ⟨ans', hans⟩ := hact pq
          rcases h with h | ⟨h, hk⟩
          · have hne : c ≠ .minimalBlockingSets := fun he =>
              hf h (blockingFirst_cons.2 (.inl he))
            obtain ⟨a₂, h2, h3, h4⟩ := h.call hR hq hans hne
            rw [h4] at h₁
            have := congrArg Prod.snd (Except.ok.inj h₁)
            dsimp only at this
            exact this ▸ ⟨h2, h3⟩
          · obtain ⟨a₂, h2, h3, h4 | ⟨_, _, h4⟩⟩ := h.call hq.good hans
            · rw [h4] at h₁
              have := congrArg Prod.snd (Except.ok.inj h₁)
              dsimp only at this
              exact this ▸ ⟨h2, h3 hk⟩
            · rw [h4] at h₁
              have := congrArg Prod.snd (Except.ok.inj h₁)
              dsimp only at this
              exact this ▸ ⟨h2, h3 hk⟩
        have hns : ¬ Start env f fR a₁ := by
          intro hs
          rw [hs] at hat
          exact hat.2 rfl
        obtain ⟨h2, h3⟩ := ih (.inr hat) (fun hs => absurd hs hns) hc
        exact ⟨h2, fun h' => absurd (h3 h').1 hns⟩

end
end FA
