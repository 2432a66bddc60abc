import Verif.Model.FrontEnd
import Verif.Lemmas.Shrinking
import Verif.Lemmas.Subsets
import Verif.Lemmas.Canonical

/-!
# Invariants of the caching front end
-/

namespace FA
open Spec Analysis

/-- What an object computes after its ID space has been shrunk to `K`. -/
structure Params where
  K : NodeSet
  f' : Fbas
  Q : List NodeSet
  B : List NodeSet
  S : List NodeSet

/-- The verdict computed from the minimal quorums. -/
def verdictOf (Q : List NodeSet) : Bool := !Q.isEmpty && allIntersect Q

/-- State after shrinking: all caches are empty or hold the values of `p`, and empty caches would be
filled with the values of `p`. -/
structure At (env : Env) (f : Fbas) (p : Params) (a : Analysis) : Prop where
  orig : a.fbasOriginal = f
  fs : a.fbasShrunken = p.f'
  sm : a.shrinkManager = ShrinkManager.new p.K
  mq : a.mq = some p.Q ∨ (a.mq = none ∧ findMinimalQuorums env p.f' = .ok p.Q)
  mbs : a.mbs = some p.B ∨ (a.mbs = none ∧ findMinimalBlockingSets env p.f' = .ok p.B)
  known : a.mq ≠ none ∨ a.mbs ≠ none
  hqi : a.hqi = none ∨ a.hqi = some (verdictOf p.Q)
  mss : a.mss = none ∨ a.mss = some p.S
  split : (if verdictOf p.Q = true then findMinimalSplittingSets env p.f' p.Q else .ok [∅]) = .ok p.S

section
variable {env : Env} {f : Fbas} {p : Params} {a : Analysis}

theorem At.mqs (h : At env f p a) (d : ℕ) (b : Borrows) :
    ∃ a', minimalQuorumsShrunken env (d + 1) b a = .ok (p.Q, a') ∧ At env f p a' ∧
      a'.mq = some p.Q := by
  rw [minimalQuorumsShrunken, cachedComputation]
  rcases h.mq with hm | ⟨hm, hc⟩
  · rw [hm]; exact ⟨a, rfl, h, hm⟩
  · have hb : a.mbs.isNone = false := by
      rcases h.known with h' | h'
      · exact absurd hm h'
      · cases hh : a.mbs with
        | none => exact absurd hh h'
        | some _ => rfl
    rw [hm]
    dsimp only
    rw [hb, fromFbasShrunken, h.fs, hc]
    simp only [Bool.and_false, if_true, Bool.false_eq_true, if_false]
    exact ⟨_, rfl, ⟨h.orig, h.fs, h.sm, .inl rfl, h.mbs, .inl (by simp), h.hqi, h.mss, h.split⟩, rfl⟩

theorem At.mbs' (h : At env f p a) (d : ℕ) (b : Borrows) :
    ∃ a', minimalBlockingSetsShrunken env (d + 1) b a = .ok (p.B, a') ∧ At env f p a' ∧
      a'.mq = a.mq := by
  rw [minimalBlockingSetsShrunken, cachedComputation]
  rcases h.mbs with hm | ⟨hm, hc⟩
  · rw [hm]; exact ⟨a, rfl, h, rfl⟩
  · have hb : a.mq.isNone = false := by
      rcases h.known with h' | h'
      · cases hh : a.mq with
        | none => exact absurd hh h'
        | some _ => rfl
      · exact absurd hm h'
    rw [hm]
    dsimp only
    rw [hb, fromFbasShrunken, h.fs, hc]
    simp only [Bool.false_and, if_true, Bool.false_eq_true, if_false]
    exact ⟨_, rfl, ⟨h.orig, h.fs, h.sm, h.mq, .inl rfl, .inr (by simp), h.hqi, h.mss, h.split⟩, rfl⟩

theorem At.topTier (h : At env f p a) (d : ℕ) (b : Borrows) :
    ∃ a', At env f p a' ∧ (a.mq ≠ none → a'.mq ≠ none) ∧ (topTierShrunken env (d + 2) b a = .ok (involvedNodes p.Q, a') ∨
      (a.mq = none ∧ topTierShrunken env (d + 2) b a = .ok (involvedNodes p.B, a'))) := by
  rw [topTierShrunken]
  by_cases hc : (a.mq.isSome || a.mbs.isNone) = true
  · rw [if_pos hc]
    obtain ⟨a', h1, h2, h3⟩ := h.mqs d b
    rw [h1]
    exact ⟨a', h2, fun _ => by simp [h3], .inl rfl⟩
  · rw [if_neg hc]
    obtain ⟨a', h1, h2, h3⟩ := h.mbs' d b
    rw [h1]
    refine ⟨a', h2, fun h => h3 ▸ h, .inr ⟨?_, rfl⟩⟩
    cases hm : a.mq with
    | none => rfl
    | some _ => rw [hm] at hc; simp at hc

theorem At.hqi' (h : At env f p a) (b : Borrows) :
    ∃ a', hasQuorumIntersectionFromShrunken env b a = .ok (verdictOf p.Q, a') ∧ At env f p a' ∧
      (a.mq ≠ none → a'.mq ≠ none) := by
  rw [hasQuorumIntersectionFromShrunken, cachedComputation]
  rcases h.hqi with hm | hm
  · rw [hm]
    dsimp only
    obtain ⟨a', h1, h2, h3⟩ := h.mqs 7 b
    rw [show depth = 7 + 1 from rfl, h1]
    simp only [Bool.false_eq_true, if_false]
    exact ⟨_, rfl, ⟨h2.orig, h2.fs, h2.sm, h2.mq, h2.mbs, h2.known, .inr rfl, h2.mss, h2.split⟩,
      fun _ => by simp [h3]⟩
  · rw [hm]; exact ⟨a, rfl, h, id⟩

theorem At.mss' (h : At env f p a) (b : Borrows) :
    ∃ a', minimalSplittingSetsShrunken env b a = .ok (p.S, a') ∧ At env f p a' ∧ a'.mq ≠ none := by
  rw [minimalSplittingSetsShrunken]
  obtain ⟨a₁, h1, h2, hk⟩ := h.mqs 7 b
  rw [show depth = 7 + 1 from rfl, h1]
  have hk' : a₁.mq ≠ none := by simp [hk]
  dsimp only
  rw [cachedComputation]
  rcases h2.mss with hm | hm
  · rw [hm]
    dsimp only
    obtain ⟨a₂, h3, h4, h5⟩ := h2.hqi' { b with fbas := true }
    rw [h3]
    cases hv : verdictOf p.Q with
    | true =>
      have hs := h.split
      rw [hv, if_pos rfl] at hs
      dsimp only
      rw [h2.fs, hs]
      simp only [Bool.false_eq_true, if_false]
      exact ⟨_, rfl, ⟨h4.orig, h4.fs, h4.sm, h4.mq, h4.mbs, h4.known, h4.hqi, .inr rfl, h4.split⟩,
        h5 hk'⟩
    | false =>
      have hs := h.split
      rw [hv, if_neg (by simp)] at hs
      have hs' := Except.ok.inj hs
      simp only [Bool.false_eq_true, if_false]
      rw [hs']
      exact ⟨_, rfl, ⟨h4.orig, h4.fs, h4.sm, h4.mq, h4.mbs, h4.known, h4.hqi, .inr rfl, h4.split⟩,
        h5 hk'⟩
  · rw [hm]; exact ⟨a₁, rfl, h2, hk'⟩

end

/-! ### Leaving the initial state -/

/-- State before any minimal sets have been computed. -/
def Start (env : Env) (f : Fbas) (fR : Fbas) (a : Analysis) : Prop :=
  a = ⟨f, fR, ShrinkManager.new (f.relevantNodes env), none, none, none, none⟩

/-- The values if quorums are computed first. -/
structure ModeQ (env : Env) (f fR : Fbas) (p : Params) : Prop where
  QR : ∃ QR, findMinimalQuorums env fR = .ok QR ∧
    p.K = unSet (f.relevantNodes env) (involvedNodes QR) ∧
    p.Q = QR.map (fun S => shrSet p.K (unSet (f.relevantNodes env) S))
  sh : f.shrunken p.K = .ok (p.f', ShrinkManager.new p.K)
  is : IsShrunken f p.K p.f'
  B : findMinimalBlockingSets env p.f' = .ok p.B
  split : (if verdictOf p.Q = true then findMinimalSplittingSets env p.f' p.Q else .ok [∅]) = .ok p.S

/-- The values if blocking sets are computed first. -/
structure ModeB (env : Env) (f fR : Fbas) (p : Params) : Prop where
  BR : ∃ BR, findMinimalBlockingSets env fR = .ok BR ∧
    p.K = unSet (f.relevantNodes env) (involvedNodes BR) ∧
    p.B = BR.map (fun S => shrSet p.K (unSet (f.relevantNodes env) S))
  sh : f.shrunken p.K = .ok (p.f', ShrinkManager.new p.K)
  is : IsShrunken f p.K p.f'
  Q : findMinimalQuorums env p.f' = .ok p.Q
  split : (if verdictOf p.Q = true then findMinimalSplittingSets env p.f' p.Q else .ok [∅]) = .ok p.S

theorem exists_split (env : Env) {f : Fbas} (hwf : WF f) (Q : List NodeSet) :
    ∃ S, (if verdictOf Q = true then findMinimalSplittingSets env f Q else .ok [∅]) = .ok S := by
  split
  · exact ⟨_, findMinimalSplittingSets_eq env hwf Q⟩
  · exact ⟨_, rfl⟩

theorem exists_modeQ (env : Env) (f : Fbas) {fR : Fbas} (hR : IsShrunken f (f.relevantNodes env) fR) :
    ∃ p, ModeQ env f fR p := by
  obtain ⟨QR, hQ, _⟩ := findMinimalQuorums_spec env hR.wf
  obtain ⟨f', h1, h2⟩ := f.shrunken_ok (unSet (f.relevantNodes env) (involvedNodes QR))
  obtain ⟨S, hS⟩ := exists_split env h2.wf (QR.map (fun S => shrSet
    (unSet (f.relevantNodes env) (involvedNodes QR)) (unSet (f.relevantNodes env) S)))
  exact ⟨⟨_, f', _, _, S⟩, ⟨QR, hQ, rfl, rfl⟩, h1, h2, findMinimalBlockingSets_eq env h2.wf, hS⟩

theorem exists_modeB (env : Env) (f : Fbas) {fR : Fbas} (hR : IsShrunken f (f.relevantNodes env) fR) :
    ∃ p, ModeB env f fR p := by
  obtain ⟨BR, hB⟩ : ∃ BR, findMinimalBlockingSets env fR = .ok BR :=
    ⟨_, findMinimalBlockingSets_eq env hR.wf⟩
  obtain ⟨f', h1, h2⟩ := f.shrunken_ok (unSet (f.relevantNodes env) (involvedNodes BR))
  obtain ⟨Q, hQ, _⟩ := findMinimalQuorums_spec env h2.wf
  obtain ⟨S, hS⟩ := exists_split env h2.wf Q
  exact ⟨⟨_, f', Q, BR.map (fun S => shrSet (unSet (f.relevantNodes env) (involvedNodes BR))
    (unSet (f.relevantNodes env) S)), S⟩, ⟨BR, hB, rfl, rfl⟩, h1, h2, hQ, hS⟩

theorem shrinkToTopTier_ok {a : Analysis} {f f' : Fbas} {R K V : NodeSet}
    {q b : Option (List NodeSet)}
    (ho : a.fbasOriginal = f) (hsm : a.shrinkManager = ShrinkManager.new R)
    (hV : V ⊆ Finset.range R.card) (hK : K = unSet R V)
    (hsh : f.shrunken K = .ok (f', ShrinkManager.new K))
    (hn : (a.mq.isNone || a.mbs.isNone) = true)
    (hq : reshrinkCache (ShrinkManager.new K) (ShrinkManager.new R) a.mq = .ok q)
    (hb : reshrinkCache (ShrinkManager.new K) (ShrinkManager.new R) a.mbs = .ok b) :
    shrinkToTopTier free V a = .ok { a with
      fbasShrunken := f', shrinkManager := ShrinkManager.new K, mq := q, mbs := b } := by
  rw [shrinkToTopTier, hsm, unshrinkSet_ok hV, ← hK]
  dsimp only
  rw [ho, hsh]
  dsimp only
  rw [if_pos hn, hq]
  dsimp only
  rw [hb]
  rfl

theorem reshrinkCache_ok {R K : NodeSet} {l : List NodeSet} (h : ∀ S ∈ l, S ⊆ Finset.range R.card)
    (hK : K = unSet R (involvedNodes l)) :
    reshrinkCache (ShrinkManager.new K) (ShrinkManager.new R) (some l) =
      .ok (some (l.map (fun S => shrSet K (unSet R S)))) := by
  rw [reshrinkCache, reshrinkSets_ok h]
  intro S hS
  rw [hK]
  refine Finset.image_subset_image ?_
  intro x hx
  exact mem_involvedNodes.2 ⟨S, hS, hx⟩

section
variable {env : Env} {f fR : Fbas} {a : Analysis} {p : Params}

theorem Start.mqs (h : Start env f fR a) (hR : IsShrunken f (f.relevantNodes env) fR)
    (hp : ModeQ env f fR p) (d : ℕ) :
    ∃ a', minimalQuorumsShrunken env (d + 4) free a = .ok (p.Q, a') ∧ At env f p a' ∧
      a'.mq = some p.Q := by
  obtain ⟨QR, hQ, hK, hpQ⟩ := hp.QR
  have hsub : ∀ S ∈ QR, S ⊆ Finset.range (f.relevantNodes env).card := by
    obtain ⟨L, h1, h2, _⟩ := findMinimalQuorums_spec env hR.wf
    rw [hQ] at h1
    rw [Except.ok.inj h1]
    exact fun S hS => hR.quorum_subset ((h2 S).1 hS).prop
  have hV : involvedNodes QR ⊆ Finset.range (f.relevantNodes env).card :=
    unionAll_subset.2 hsub
  unfold Start at h
  subst h
  rw [minimalQuorumsShrunken, cachedComputation]
  dsimp only
  rw [fromFbasShrunken, hQ]
  simp only [Option.isNone_none, Bool.and_self, if_true]
  rw [shrinkIdSpaceToTopTier, topTierShrunken, if_pos (by simp), minimalQuorumsShrunken,
    cachedComputation]
  dsimp only
  rw [shrinkToTopTier_ok (K := p.K) rfl rfl hV hK hp.sh (by simp) (reshrinkCache_ok hsub hK)
    (by rfl : reshrinkCache _ _ none = .ok none)]
  dsimp only
  rw [← hpQ]
  exact ⟨_, rfl, ⟨rfl, rfl, rfl, .inl rfl, .inr ⟨rfl, hp.B⟩, .inl (by simp), .inl rfl, .inl rfl,
    hp.split⟩, rfl⟩

theorem Start.mbs (h : Start env f fR a) (hR : IsShrunken f (f.relevantNodes env) fR)
    (hp : ModeB env f fR p) (d : ℕ) :
    ∃ a', minimalBlockingSetsShrunken env (d + 4) free a = .ok (p.B, a') ∧ At env f p a' := by
  obtain ⟨BR, hB, hK, hpB⟩ := hp.BR
  have hsub : ∀ S ∈ BR, S ⊆ Finset.range (f.relevantNodes env).card := by
    intro S hS
    rw [← hR.subset]
    exact findMinimalBlockingSets_subset env hR.wf hB hS
  have hV : involvedNodes BR ⊆ Finset.range (f.relevantNodes env).card :=
    unionAll_subset.2 hsub
  unfold Start at h
  subst h
  rw [minimalBlockingSetsShrunken, cachedComputation]
  dsimp only
  rw [fromFbasShrunken, hB]
  simp only [Option.isNone_none, Bool.and_self, if_true]
  rw [shrinkIdSpaceToTopTier, topTierShrunken, if_neg (by simp), minimalBlockingSetsShrunken,
    cachedComputation]
  dsimp only
  rw [shrinkToTopTier_ok (K := p.K) rfl rfl hV hK hp.sh (by simp)
    (by rfl : reshrinkCache _ _ none = .ok none) (reshrinkCache_ok hsub hK)]
  dsimp only
  rw [← hpB]
  exact ⟨_, rfl, rfl, rfl, rfl, .inr ⟨rfl, hp.Q⟩, .inl rfl, .inr (by simp), .inl rfl, .inl rfl,
    hp.split⟩

theorem Start.topTier (h : Start env f fR a) (hR : IsShrunken f (f.relevantNodes env) fR)
    (hp : ModeQ env f fR p) (d : ℕ) :
    ∃ a', topTierShrunken env (d + 5) free a = .ok (involvedNodes p.Q, a') ∧ At env f p a' ∧
      a'.mq = some p.Q := by
  obtain ⟨a', h1, h2, h3⟩ := h.mqs hR hp d
  rw [topTierShrunken, if_pos (by rw [h]; rfl), h1]
  exact ⟨a', rfl, h2, h3⟩

theorem Start.hqi (h : Start env f fR a) (hR : IsShrunken f (f.relevantNodes env) fR)
    (hp : ModeQ env f fR p) :
    ∃ a', hasQuorumIntersectionFromShrunken env free a = .ok (verdictOf p.Q, a') ∧
      At env f p a' ∧ a'.mq = some p.Q := by
  rw [hasQuorumIntersectionFromShrunken, cachedComputation,
    show a.hqi = none by rw [h]]
  dsimp only
  obtain ⟨a', h1, h2, h3⟩ := h.mqs hR hp 4
  rw [show depth = 4 + 4 from rfl, h1]
  simp only [Bool.false_eq_true, if_false]
  exact ⟨_, rfl, ⟨h2.orig, h2.fs, h2.sm, h2.mq, h2.mbs, h2.known, .inr rfl, h2.mss, h2.split⟩, h3⟩

theorem Start.mss (h : Start env f fR a) (hR : IsShrunken f (f.relevantNodes env) fR)
    (hp : ModeQ env f fR p) :
    ∃ a', minimalSplittingSetsShrunken env free a = .ok (p.S, a') ∧ At env f p a' ∧
      a'.mq ≠ none := by
  obtain ⟨a₁, h1, h2, h3⟩ := h.mqs hR hp 4
  obtain ⟨a₂, h4, h5, h6⟩ := h2.mss' free
  refine ⟨a₂, ?_, h5, h6⟩
  rw [minimalSplittingSetsShrunken, show depth = 4 + 4 from rfl, h1]
  rw [minimalSplittingSetsShrunken, show depth = 7 + 1 from rfl, minimalQuorumsShrunken,
    cachedComputation, h3] at h4
  exact h4

end
end FA
