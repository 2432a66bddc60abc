import Verif.Model.CheckedFrontEnd
import Verif.Lemmas.CheckedAntichain

/-!
# Helper lemmas: the front end on top of the checked analysis
-/

namespace FA.Checked.Analysis
open FA FA.Analysis Spec

theorem wf_shrunken {f f' : Fbas} {K : NodeSet} {sm : ShrinkManager}
    (h : f.shrunken K = .ok (f', sm)) : WF f' := by
  obtain ⟨f'', h1, h2⟩ := f.shrunken_ok K
  rw [h] at h1
  obtain ⟨rfl, _⟩ : f' = f'' ∧ sm = ShrinkManager.new K := by simpa using h1
  exact h2.wf

/-- All FBASs that the object holds can be analysed, in a debug build without failing assertions. -/
structure Inv (dbg : Bool) (a : Analysis) : Prop where
  original : Closed a.fbasOriginal
  shrunken : WF a.fbasShrunken
  repeats : dbg = true → NoRepeats a.fbasOriginal ∧ NoRepeats a.fbasShrunken

variable {dbg : Bool}

theorem Inv.searches (env : Env) {a : Analysis} (ha : Inv dbg a) (M : List NodeSet) :
    findMinimalQuorums dbg env a.fbasShrunken = FA.findMinimalQuorums env a.fbasShrunken ∧
    findMinimalBlockingSets dbg env a.fbasShrunken =
      FA.findMinimalBlockingSets env a.fbasShrunken ∧
    findMinimalSplittingSets dbg env a.fbasShrunken M =
      FA.findMinimalSplittingSets env a.fbasShrunken M := by
  have hc := Closed.of_wf ha.shrunken
  cases dbg with
  | false => exact ⟨findMinimalQuorums_ok env hc (by simp) (by simp),
      findMinimalBlockingSets_ok env hc (by simp) (by simp),
      findMinimalSplittingSets_ok env hc M (by simp)⟩
  | true => exact searches_total env ha.shrunken (fun q hq => (ha.repeats rfl).2.symCluster hq) M

/-- Same outcome, and the invariant is kept. -/
def Good (dbg : Bool) {R : Type} (x y : Except Panic (R × Analysis)) : Prop :=
  x = y ∧ ∀ r a', y = .ok (r, a') → Inv dbg a'

/-- Same outcome, and the invariant is kept. -/
def GoodA (dbg : Bool) (x y : Except Panic Analysis) : Prop := x = y ∧ ∀ a', y = .ok a' → Inv dbg a'

theorem Good.cached {R : Type} {get : Analysis → Option R} {set : R → Analysis → Analysis}
    (hset : ∀ r a, Inv dbg a → Inv dbg (set r a)) {c c' : Analysis → Except Panic (R × Analysis)}
    {b : Bool} {s s' : Analysis → Except Panic Analysis} (hs : ∀ a, Inv dbg a → GoodA dbg (s a) (s' a))
    {a : Analysis} (ha : Inv dbg a) (hc : Good dbg (c a) (c' a)) :
    Good dbg (cachedComputation get set c b s a) (cachedComputation get set c' b s' a) := by
  obtain ⟨hc1, hc2⟩ := hc
  unfold cachedComputation
  cases get a with
  | some r => exact ⟨rfl, fun r' a' h => by simp at h; exact h.2 ▸ ha⟩
  | none =>
    dsimp only
    rw [hc1]
    cases hr : c' a with
    | error e => exact ⟨rfl, by simp⟩
    | ok p =>
      obtain ⟨r, a₁⟩ := p
      have ha₁ := hset r a₁ (hc2 r a₁ hr)
      obtain ⟨hs1, hs2⟩ := hs _ ha₁
      dsimp only
      generalize (if b then a.mq.isNone && a.mbs.isNone else false) = sh
      rw [hs1]
      have key : ∀ x : Except Panic Analysis, (∀ a', x = .ok a' → Inv dbg a') →
          ∀ r' a', (match x with
            | .error e => .error e
            | .ok a₂ =>
              match get a₂ with
              | none => .error .unwrapNone
              | some r => .ok (r, a₂)) = (.ok (r', a') : Except Panic (R × Analysis)) → Inv dbg a' := by
        intro x hx r' a' h
        cases x with
        | error e => simp at h
        | ok a₂ =>
          dsimp only at h
          cases hg : get a₂ with
          | none => rw [hg] at h; simp at h
          | some r'' =>
            rw [hg] at h
            simp only [Except.ok.injEq, Prod.mk.injEq] at h
            exact h.2 ▸ hx a₂ rfl
      refine ⟨rfl, key _ ?_⟩
      cases sh
      · intro a' h
        simp only [Bool.false_eq_true, if_false, Except.ok.injEq] at h
        exact h ▸ ha₁
      · simpa using hs2

theorem Good.fromFbas {R : Type} {c c' : Fbas → Except Panic R} {a : Analysis} (ha : Inv dbg a)
    (h : c a.fbasShrunken = c' a.fbasShrunken) :
    Good dbg (fromFbasShrunken c a) (fromFbasShrunken c' a) := by
  unfold fromFbasShrunken
  rw [h]
  refine ⟨rfl, fun r a' h' => ?_⟩
  cases hc : c' a.fbasShrunken with
  | error e => rw [hc] at h'; simp at h'
  | ok r => rw [hc] at h'; simp at h'; exact h'.2 ▸ ha

theorem inv_shrinkToTopTier {b : Borrows} {T : NodeSet} {a a' : Analysis} (ha : Inv dbg a)
    (h : shrinkToTopTier b T a = .ok a') : Inv dbg a' := by
  unfold shrinkToTopTier at h
  split at h
  · simp at h
  · split at h
    · simp at h
    · rename_i newFbas newSm hsh
      split at h
      · split at h
        · simp at h
        · split at h
          · simp at h
          · split at h
            · simp at h
            · simp only [Except.ok.injEq] at h
              subst h
              exact ⟨ha.original, wf_shrunken hsh,
                fun h => ⟨(ha.repeats h).1, (ha.repeats h).1.shrunken hsh⟩⟩
      · simp at h

/-- The mutually recursive methods. -/
theorem good_rec (env : Env) (d : ℕ) : ∀ b a, Inv dbg a →
    Good dbg (minimalQuorumsShrunken dbg env d b a) (FA.Analysis.minimalQuorumsShrunken env d b a) ∧
    Good dbg (minimalBlockingSetsShrunken dbg env d b a)
      (FA.Analysis.minimalBlockingSetsShrunken env d b a) ∧
    Good dbg (topTierShrunken dbg env d b a) (FA.Analysis.topTierShrunken env d b a) ∧
    GoodA dbg (shrinkIdSpaceToTopTier dbg env d b a)
      (FA.Analysis.shrinkIdSpaceToTopTier env d b a) := by
  induction d with
  | zero =>
    intro b a _
    simp only [minimalQuorumsShrunken, minimalBlockingSetsShrunken, topTierShrunken,
      shrinkIdSpaceToTopTier, FA.Analysis.minimalQuorumsShrunken,
      FA.Analysis.minimalBlockingSetsShrunken, FA.Analysis.topTierShrunken,
      FA.Analysis.shrinkIdSpaceToTopTier]
    exact ⟨⟨rfl, by simp⟩, ⟨rfl, by simp⟩, ⟨rfl, by simp⟩, ⟨rfl, by simp⟩⟩
  | succ d ih =>
    intro b a ha
    refine ⟨?_, ?_, ?_, ?_⟩
    · rw [minimalQuorumsShrunken, FA.Analysis.minimalQuorumsShrunken]
      refine Good.cached ?_ (fun a ha => (ih b a ha).2.2.2) ha
        (Good.fromFbas ha (ha.searches env []).1)
      exact fun r a ha => ⟨ha.1, ha.2, ha.3⟩
    · rw [minimalBlockingSetsShrunken, FA.Analysis.minimalBlockingSetsShrunken]
      refine Good.cached ?_ (fun a ha => (ih b a ha).2.2.2) ha
        (Good.fromFbas ha (ha.searches env []).2.1)
      exact fun r a ha => ⟨ha.1, ha.2, ha.3⟩
    · rw [topTierShrunken, FA.Analysis.topTierShrunken]
      obtain ⟨⟨h1, h2⟩, ⟨h3, h4⟩, -⟩ := ih b a ha
      split
      · rw [h1]
        cases hr : FA.Analysis.minimalQuorumsShrunken env d b a with
        | error e => exact ⟨rfl, by simp⟩
        | ok p =>
          refine ⟨rfl, fun r a' h => ?_⟩
          simp only [Except.ok.injEq, Prod.mk.injEq] at h
          exact h.2 ▸ h2 _ _ hr
      · rw [h3]
        cases hr : FA.Analysis.minimalBlockingSetsShrunken env d b a with
        | error e => exact ⟨rfl, by simp⟩
        | ok p =>
          refine ⟨rfl, fun r a' h => ?_⟩
          simp only [Except.ok.injEq, Prod.mk.injEq] at h
          exact h.2 ▸ h4 _ _ hr
    · rw [shrinkIdSpaceToTopTier, FA.Analysis.shrinkIdSpaceToTopTier]
      obtain ⟨-, -, ⟨h1, h2⟩, -⟩ := ih { b with sm := true } a ha
      rw [h1]
      cases hr : FA.Analysis.topTierShrunken env d { b with sm := true } a with
      | error e => exact ⟨rfl, by simp⟩
      | ok p =>
        obtain ⟨T, a₁⟩ := p
        exact ⟨rfl, fun a' h => inv_shrinkToTopTier (h2 _ _ hr) h⟩

theorem good_hqi (env : Env) (b : Borrows) {a : Analysis} (ha : Inv dbg a) :
    Good dbg (hasQuorumIntersectionFromShrunken dbg env b a)
      (FA.Analysis.hasQuorumIntersectionFromShrunken env b a) := by
  rw [hasQuorumIntersectionFromShrunken, FA.Analysis.hasQuorumIntersectionFromShrunken]
  refine Good.cached ?_ ?_ ha ?_
  · exact fun r a ha => ⟨ha.1, ha.2, ha.3⟩
  · exact fun a ha => (good_rec env _ b a ha).2.2.2
  obtain ⟨h1, h2⟩ := (good_rec env depth b a ha).1
  rw [h1]
  cases hr : FA.Analysis.minimalQuorumsShrunken env depth b a with
  | error e => exact ⟨rfl, by simp⟩
  | ok p =>
    refine ⟨rfl, fun r a' h => ?_⟩
    simp only [Except.ok.injEq, Prod.mk.injEq] at h
    exact h.2 ▸ h2 _ _ hr

theorem good_splitting (env : Env) (b : Borrows) {a : Analysis} (ha : Inv dbg a) :
    Good dbg (minimalSplittingSetsShrunken dbg env b a)
      (FA.Analysis.minimalSplittingSetsShrunken env b a) := by
  rw [minimalSplittingSetsShrunken, FA.Analysis.minimalSplittingSetsShrunken]
  obtain ⟨h1, h2⟩ := (good_rec env depth b a ha).1
  rw [h1]
  cases hr : FA.Analysis.minimalQuorumsShrunken env depth b a with
  | error e => exact ⟨rfl, by simp⟩
  | ok p =>
    obtain ⟨Q, a₁⟩ := p
    have ha₁ := h2 _ _ hr
    rw [ok_bind]
    refine Good.cached ?_ ?_ ha₁ ?_
    · exact fun r a ha => ⟨ha.1, ha.2, ha.3⟩
    · exact fun a ha => (good_rec env _ b a ha).2.2.2
    obtain ⟨h3, h4⟩ := good_hqi env { b with fbas := true } ha₁
    rw [splittingComputation, h3]
    dsimp only
    cases hr' : FA.Analysis.hasQuorumIntersectionFromShrunken env { b with fbas := true } a₁ with
    | error e => exact ⟨rfl, by simp⟩
    | ok p =>
      obtain ⟨v, a₂⟩ := p
      have ha₂ := h4 _ _ hr'
      rw [ok_bind]
      cases v
      · refine ⟨rfl, fun r a' h => ?_⟩
        simp only [Except.ok.injEq, Prod.mk.injEq] at h
        exact h.2 ▸ ha₂
      · simp only [if_true]
        rw [(ha₁.searches env Q).2.2]
        cases FA.findMinimalSplittingSets env a₁.fbasShrunken Q with
        | error e => exact ⟨rfl, by simp⟩
        | ok l =>
          refine ⟨rfl, fun r a' h => ?_⟩
          simp only [Except.ok.injEq, Prod.mk.injEq] at h
          exact h.2 ▸ ha₂

theorem Good.map {R S : Type} {x y : Except Panic (R × Analysis)} (h : Good dbg x y) (g : R → S) :
    Good dbg (x.map (fun p => (g p.1, p.2))) (y.map (fun p => (g p.1, p.2))) := by
  obtain ⟨rfl, h2⟩ := h
  refine ⟨rfl, fun r a' h => ?_⟩
  cases x with
  | error e => simp [Except.map] at h
  | ok p => simp [Except.map] at h; exact h.2 ▸ h2 p.1 p.2 rfl

theorem Good.const {R : Type} {x y : Except Panic R} (h : x = y) {a : Analysis} (ha : Inv dbg a)
    {S : Type} (g : R → S) : Good dbg (x.map (fun r => (g r, a))) (y.map (fun r => (g r, a))) := by
  subst h
  refine ⟨rfl, fun r a' h => ?_⟩
  cases x with
  | error e => simp [Except.map] at h
  | ok p => simp [Except.map] at h; exact h.2 ▸ ha

theorem Good.answerSets {x y : Except Panic (SetVecResult × Analysis)} (h : Good dbg x y) :
    Good dbg (FA.Analysis.answerSets x) (FA.Analysis.answerSets y) := by
  obtain ⟨rfl, h2⟩ := h
  refine ⟨rfl, fun r a' h => ?_⟩
  cases x with
  | error e => simp [FA.Analysis.answerSets] at h
  | ok p =>
    obtain ⟨v, a⟩ := p
    simp only [FA.Analysis.answerSets] at h
    split at h
    · simp at h
    · simp only [Except.ok.injEq, Prod.mk.injEq] at h
      exact h.2 ▸ h2 _ _ rfl

theorem good_call (env : Env) {a : Analysis} (ha : Inv dbg a) (c : Call) :
    Good dbg (call dbg env a c) (FA.Analysis.call env a c) := by
  cases c with
  | allNodes => exact Good.const (x := a.allNodes) rfl ha (fun r => Answer.set r.unwrap)
  | satisfiableNodes =>
    refine Good.const (x := satisfiableNodes a) (y := a.satisfiableNodes) ?_ ha (fun r => Answer.set r.unwrap)
    rw [satisfiableNodes, Checked.satisfiableNodes_ok]; rfl
  | unsatisfiableNodes =>
    refine Good.const (x := unsatisfiableNodes a) (y := a.unsatisfiableNodes) ?_ ha (fun r => Answer.set r.unwrap)
    rw [unsatisfiableNodes, Checked.unsatisfiableNodes_ok]; rfl
  | hasQuorumIntersection => exact (good_hqi env free ha).map _
  | alternativeCheck =>
    rw [call, FA.Analysis.call, alternativeCheck, FA.Analysis.alternativeCheck,
      findNonintersectingQuorums_ok dbg env (Closed.of_wf ha.shrunken)]
    cases FA.findNonintersectingQuorums env a.fbasShrunken with
    | error e => exact ⟨rfl, by simp⟩
    | ok o =>
      cases o with
      | none =>
        refine ⟨rfl, fun r a' h => ?_⟩
        simp only [Except.ok.injEq, Prod.mk.injEq] at h
        exact h.2 ▸ ha
      | some l =>
        rw [ok_bind]
        have key : ∀ v : SetVecResult, Good dbg
            (do let l ← v.unwrap; .ok (Answer.verdict false (some l), a))
            (match v.unwrap with
              | .error e => .error e
              | .ok l => .ok (.verdict false (some l), a)) := by
          intro v
          cases v.unwrap with
          | error e => exact ⟨rfl, by simp⟩
          | ok l =>
            refine ⟨rfl, fun r a' h => ?_⟩
            simp only [Except.ok.injEq, Prod.mk.injEq] at h
            exact h.2 ▸ ha
        match l with
        | [] => exact ⟨rfl, by simp⟩
        | [_] => exact ⟨rfl, by simp⟩
        | q₀ :: q₁ :: l =>
          simp only [alternativeCheckResult, getE, List.getElem?_cons_zero, List.getElem?_cons_succ,
            ok_bind]
          split
          · exact key _
          · exact ⟨rfl, by simp⟩
  | minimalQuorums =>
    rw [call, FA.Analysis.call]
    apply Good.answerSets
    obtain ⟨h1, h2⟩ := (good_rec env depth free a ha).1
    rw [minimalQuorums, FA.Analysis.minimalQuorums, h1]
    cases hr : FA.Analysis.minimalQuorumsShrunken env depth free a with
    | error e => exact ⟨rfl, by simp⟩
    | ok p =>
      refine ⟨rfl, fun r a' h => ?_⟩
      simp only [Except.ok.injEq, Prod.mk.injEq] at h
      exact h.2 ▸ h2 _ _ hr
  | minimalBlockingSets =>
    rw [call, FA.Analysis.call]
    apply Good.answerSets
    obtain ⟨h1, h2⟩ := (good_rec env depth free a ha).2.1
    rw [minimalBlockingSets, FA.Analysis.minimalBlockingSets, h1]
    cases hr : FA.Analysis.minimalBlockingSetsShrunken env depth free a with
    | error e => exact ⟨rfl, by simp⟩
    | ok p =>
      refine ⟨rfl, fun r a' h => ?_⟩
      simp only [Except.ok.injEq, Prod.mk.injEq] at h
      exact h.2 ▸ h2 _ _ hr
  | minimalSplittingSets =>
    rw [call, FA.Analysis.call]
    apply Good.answerSets
    obtain ⟨h1, h2⟩ := (good_splitting env free ha)
    rw [minimalSplittingSets, FA.Analysis.minimalSplittingSets, h1]
    cases hr : FA.Analysis.minimalSplittingSetsShrunken env free a with
    | error e => exact ⟨rfl, by simp⟩
    | ok p =>
      refine ⟨rfl, fun r a' h => ?_⟩
      simp only [Except.ok.injEq, Prod.mk.injEq] at h
      exact h.2 ▸ h2 _ _ hr
  | topTier =>
    obtain ⟨h1, h2⟩ := (good_rec env depth free a ha).2.2.1
    rw [call, FA.Analysis.call, topTier, FA.Analysis.topTier, h1]
    cases hr : FA.Analysis.topTierShrunken env depth free a with
    | error e => exact ⟨rfl, by simp [Except.map]⟩
    | ok p =>
      obtain ⟨T, a₁⟩ := p
      rw [ok_bind]
      dsimp only
      cases a₁.makeShrunkenSetResult T with
      | error e => exact ⟨rfl, by simp [Except.map]⟩
      | ok r =>
        refine ⟨rfl, fun r a' h => ?_⟩
        simp only [Except.map, Except.ok.injEq, Prod.mk.injEq] at h
        exact h.2 ▸ h2 _ _ hr
  | symmetricTopTier => exact Good.const (findSymmetricTopTier_ok env ha.original) ha _
  | symmetricClusters => exact Good.const (findSymmetricClusters_ok env ha.original) ha _

theorem good_calls (env : Env) (cs : List Call) {a : Analysis} (ha : Inv dbg a) :
    GoodA dbg (calls dbg env cs a) (FA.Analysis.calls env cs a) := by
  induction cs generalizing a with
  | nil => exact ⟨rfl, fun a' h => by simp [FA.Analysis.calls] at h; exact h ▸ ha⟩
  | cons c cs ih =>
    obtain ⟨h1, h2⟩ := good_call env ha c
    rw [calls, FA.Analysis.calls, h1]
    cases hr : FA.Analysis.call env a c with
    | error e => exact ⟨rfl, by simp⟩
    | ok p =>
      obtain ⟨ans, a₁⟩ := p
      exact ih (h2 _ _ hr)

theorem answerAfter_ok (env : Env) {f : Fbas} (hf : Closed f) (hr : dbg = true → NoRepeats f)
    (history : List Call) (c : Call) :
    answerAfter dbg env f history c = FA.Analysis.answerAfter env f history c := by
  rw [answerAfter, FA.Analysis.answerAfter, new, FA.Analysis.new, relevantNodes_ok env hf, ok_bind]
  cases hs : f.shrunken (f.relevantNodes env) with
  | error e => rfl
  | ok p =>
    obtain ⟨f', sm⟩ := p
    rw [ok_bind, ok_bind]
    have ha : Inv dbg ⟨f, f', sm, none, none, none, none⟩ :=
      ⟨hf, wf_shrunken hs, fun h => ⟨hr h, (hr h).shrunken hs⟩⟩
    obtain ⟨h1, h2⟩ := good_calls env history ha
    rw [h1]
    dsimp only
    cases hr : FA.Analysis.calls env history ⟨f, f', sm, none, none, none, none⟩ with
    | error e => rfl
    | ok a' =>
      rw [ok_bind, (good_call env (h2 _ hr) c).1]

theorem answerAfter_error (dbg : Bool) (env : Env) {f : Fbas} (hf : ¬ Closed f)
    (history : List Call) (c : Call) :
    answerAfter dbg env f history c = .error .outOfBounds := by
  rw [answerAfter, new, relevantNodes_error env hf]; rfl

end FA.Checked.Analysis
