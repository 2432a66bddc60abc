import Verif.Lemmas.RenameFrontEnd
import Verif.Props.Symmetric
import Verif.Props.Core

/-!
# Two `Analysis` objects for FBASs that differ in the IDs of nodes
-/

namespace FA
open Spec Analysis QuorumSet

namespace Renamed
variable {σ : Equiv.Perm ℕ} {f g : Fbas}

theorem symClusters (h : Renamed σ f g) (hwf : WF f) (env env' : Env) :
    ∃ L L', findSymmetricClusters env f = .ok L ∧ findSymmetricClusters env' g = .ok L' ∧
      L'.Perm (L.map (rename σ)) ∧ ∀ q ∈ L, ∀ x, Mentions q x → x < f.nodes.length := by
  obtain ⟨L, h1, h2, h3, -⟩ := Props.C22_symmetric_clusters env f hwf
  obtain ⟨L', h1', h2', h3', -⟩ := Props.C22_symmetric_clusters env' g (h.wf hwf)
  have sorted : ∀ {f : Fbas}, (∀ x, SortedQSet (f.qset x)) → ∀ q, SymCluster f q → SortedQSet q := by
    intro f hs q hq
    obtain ⟨ha, Q, ⟨⟨x, hx⟩, -⟩, hsub⟩ := symCluster_iff.1 hq
    exact ha x (hsub hx) ▸ hs x
  have hs : ∀ q ∈ L, SortedQSet q := fun q hq => sorted h.sorted q ((h2 q).1 hq)
  refine ⟨L, L', h1, h1', ?_, fun q hq x hx => (hasQSet_iff.1 (((h2 q).1 hq).1 x hx)).1⟩
  refine (List.perm_ext_iff_of_nodup h3'
    (h3.map_on (fun a ha b hb he => rename_inj (hs a ha) (hs b hb) he))).2 (fun q => ?_)
  rw [h2', List.mem_map]
  constructor
  · intro hq
    have hsq := sorted h.symm.sorted q hq
    refine ⟨rename σ.symm q, (h2 _).2 ?_, ?_⟩
    · rw [h.symm.symCluster hsq]
      exact hq
    · have := rename_symm (σ := σ.symm) hsq
      rwa [Equiv.symm_symm] at this
  · rintro ⟨q, hq, rfl⟩
    exact (h.symCluster (hs q hq)).2 ((h2 q).1 hq)

theorem symTopTier (h : Renamed σ f g) (hwf : WF f) (env env' : Env) :
    ∃ r r', findSymmetricTopTier env f = .ok r ∧ findSymmetricTopTier env' g = .ok r' ∧
      r' = r.map (rename σ) ∧ ∀ q ∈ r, ∀ x, Mentions q x → x < f.nodes.length := by
  obtain ⟨L, L', h1, h2, h3, h4⟩ := h.symClusters hwf env env'
  unfold findSymmetricTopTier
  rw [h1, h2]
  have hl := h3.length_eq
  rw [List.length_map] at hl
  match L, L', hl, h3, h4 with
  | [], [], _, _, _ => exact ⟨_, _, rfl, rfl, rfl, by simp⟩
  | [q], [q'], _, h3, h4 =>
    have : q' = rename σ q := by simpa using h3
    subst this
    refine ⟨_, _, rfl, rfl, ?_⟩
    have : g.complementContainsQuorum (rename σ q).containedNodes =
        f.complementContainsQuorum q.containedNodes := by
      rw [Bool.eq_iff_iff, Fbas.complementContainsQuorum_iff, Fbas.complementContainsQuorum_iff,
        containedNodes_rename]
      constructor
      · rintro ⟨Q, hQ, hd⟩
        rw [← img_img_symm (σ := σ) (S := Q)] at hQ hd
        exact ⟨_, h.isQuorum.1 hQ, img_disjoint.1 hd⟩
      · rintro ⟨Q, hQ, hd⟩
        exact ⟨_, h.isQuorum.2 hQ, img_disjoint.2 hd⟩
    rw [this]
    split
    · exact ⟨rfl, by simp⟩
    · refine ⟨rfl, fun q' hq' => ?_⟩
      rw [← Option.some.inj hq']
      exact h4 q List.mem_cons_self
  | _ :: _ :: _, _ :: _ :: _, _, _, _ => exact ⟨_, _, rfl, rfl, rfl, by simp⟩

theorem unsatisfiableNodes (h : Renamed σ f g) :
    g.unsatisfiableNodes = img σ f.unsatisfiableNodes := by
  ext x
  obtain ⟨x, rfl⟩ := σ.surjective x
  rw [apply_mem_img, Props.C05_unsatisfiable, Props.C05_unsatisfiable, h.lt]
  refine and_congr_right (fun _ => not_congr ⟨?_, ?_⟩)
  · rintro ⟨Q, hQ, hx⟩
    rw [← img_img_symm (σ := σ) (S := Q)] at hQ hx
    exact ⟨_, h.isQuorum.1 hQ, apply_mem_img.1 hx⟩
  · rintro ⟨Q, hQ, hx⟩
    exact ⟨_, h.isQuorum.2 hQ, apply_mem_img.2 hx⟩

variable {env env' : Env} {a b : Analysis}

/-- Calls whose answers only depend on the original FBAS. -/
theorem static (h : Renamed σ f g) (hwf : WF f) (ha : a.fbasOriginal = f) (hb : b.fbasOriginal = g)
    {c : Call} (hc : Static c) : ∃ ans ans', a.call env c = .ok (ans, a) ∧
      b.call env' c = .ok (ans', b) ∧ MovedAnswer σ f.nodes.length ans ans' := by
  obtain ⟨⟨h1, h2, h3, h4, h5⟩, h6⟩ := hc
  cases c with
  | allNodes => exact ⟨.set f.allNodes, .set g.allNodes, by subst ha; rfl, by subst hb; rfl, h.allNodes⟩
  | satisfiableNodes =>
    exact ⟨.set f.satisfiableNodes, .set g.satisfiableNodes, by subst ha; rfl, by subst hb; rfl,
      h.satisfiableNodes⟩
  | unsatisfiableNodes =>
    exact ⟨.set f.unsatisfiableNodes, .set g.unsatisfiableNodes, by subst ha; rfl, by subst hb; rfl,
      h.unsatisfiableNodes⟩
  | symmetricTopTier =>
    obtain ⟨r, r', e1, e2, e3⟩ := h.symTopTier hwf env env'
    refine ⟨.qset r, .qset r', ?_, ?_, e3⟩
    · show (findSymmetricTopTier env a.fbasOriginal).map (fun q => (Answer.qset q, a)) = _
      rw [ha, e1]; rfl
    · show (findSymmetricTopTier env' b.fbasOriginal).map (fun q => (Answer.qset q, b)) = _
      rw [hb, e2]; rfl
  | symmetricClusters =>
    obtain ⟨r, r', e1, e2, e3⟩ := h.symClusters hwf env env'
    refine ⟨.qsets r, .qsets r', ?_, ?_, e3⟩
    · show (findSymmetricClusters env a.fbasOriginal).map (fun q => (Answer.qsets q, a)) = _
      rw [ha, e1]; rfl
    · show (findSymmetricClusters env' b.fbasOriginal).map (fun q => (Answer.qsets q, b)) = _
      rw [hb, e2]; rfl
  | hasQuorumIntersection => exact absurd rfl h1
  | minimalQuorums => exact absurd rfl h2
  | minimalBlockingSets => exact absurd rfl h3
  | minimalSplittingSets => exact absurd rfl h4
  | topTier => exact absurd rfl h5
  | alternativeCheck => exact absurd rfl h6

/-! ### The alternative check -/

theorem _root_.FA.alternativeCheck_cases {f : Fbas} {K : NodeSet}
    (hsm : a.shrinkManager = ShrinkManager.new K) (hfs : IsShrunken f K a.fbasShrunken) :
    (¬ (∃ Q, IsQuorum a.fbasShrunken Q) ∧ a.call env .alternativeCheck = .error .assertion) ∨
    ((∃ P Q, IsQuorum a.fbasShrunken P ∧ IsQuorum a.fbasShrunken Q ∧ Disjoint P Q) ∧
      ∃ l, a.call env .alternativeCheck = .ok (.verdict false (some l), a)) ∨
    ((∃ Q, IsQuorum a.fbasShrunken Q) ∧
      (¬ ∃ P Q, IsQuorum a.fbasShrunken P ∧ IsQuorum a.fbasShrunken Q ∧ Disjoint P Q) ∧
      a.call env .alternativeCheck = .ok (.verdict true none, a)) := by
  rcases alternativeCheck_error (env := env) (p := ⟨K, f, [], [], []⟩) hsm hfs
    with ⟨h1, h2⟩ | ⟨l, h1, -⟩ | ⟨h1, h2, h3⟩
  · exact .inl ⟨h1, h2⟩
  · refine .inr (.inl ⟨?_, l, h1⟩)
    rcases findNonintersectingQuorums_spec env hfs.wf with ⟨h2, h3⟩ | ⟨L, h2, h3, h4, h5⟩ | ⟨h2, h3, h4⟩
    · simp only [Analysis.call, Analysis.alternativeCheck, h3] at h1
      cases h1
    · match L, h3, h4, h5 with
      | P :: Q :: L, _, h4, h5 =>
        rw [List.pairwise_cons] at h4
        exact ⟨P, Q, h5 _ List.mem_cons_self, h5 _ (List.mem_cons_of_mem _ List.mem_cons_self),
          h4.1 Q List.mem_cons_self⟩
    · simp only [Analysis.call, Analysis.alternativeCheck, h3] at h1
      cases h1
  · exact .inr (.inr ⟨h1, fun ⟨P, Q, hP, hQ, hd⟩ => h3 P Q hP hQ hd, h2⟩)

theorem disjointQuorums (h : Renamed σ f g) :
    (∃ P Q, IsQuorum g P ∧ IsQuorum g Q ∧ Disjoint P Q) ↔
      ∃ P Q, IsQuorum f P ∧ IsQuorum f Q ∧ Disjoint P Q := by
  constructor
  · rintro ⟨P, Q, hP, hQ, hd⟩
    rw [← img_img_symm (σ := σ) (S := P)] at hP hd
    rw [← img_img_symm (σ := σ) (S := Q)] at hQ hd
    exact ⟨_, _, h.isQuorum.1 hP, h.isQuorum.1 hQ, img_disjoint.1 hd⟩
  · rintro ⟨P, Q, hP, hQ, hd⟩
    exact ⟨_, _, h.isQuorum.2 hP, h.isQuorum.2 hQ, img_disjoint.2 hd⟩

theorem alternative {τ : Equiv.Perm ℕ} {K K' : NodeSet}
    (hsm : a.shrinkManager = ShrinkManager.new K) (hfs : IsShrunken f K a.fbasShrunken)
    (hsm' : b.shrinkManager = ShrinkManager.new K') (hfs' : IsShrunken g K' b.fbasShrunken)
    (h : Renamed τ a.fbasShrunken b.fbasShrunken) :
    (a.call env .alternativeCheck = .error .assertion ∧
      b.call env' .alternativeCheck = .error .assertion) ∨
    ∃ ans ans', a.call env .alternativeCheck = .ok (ans, a) ∧
      b.call env' .alternativeCheck = .ok (ans', b) ∧ MovedAnswer σ f.nodes.length ans ans' := by
  have e1 := h.exists_quorum
  have e2 := h.disjointQuorums
  rcases alternativeCheck_cases (env := env) hsm hfs with ⟨h1, h2⟩ | ⟨h1, l, h2⟩ | ⟨h1, h2, h3⟩
  · rcases alternativeCheck_cases (env := env') hsm' hfs' with
      ⟨h1', h2'⟩ | ⟨⟨P, Q, hP, -⟩, -⟩ | ⟨h1', -⟩
    · exact .inl ⟨h2, h2'⟩
    · exact absurd (e1.1 ⟨P, hP⟩) h1
    · exact absurd (e1.1 h1') h1
  · rcases alternativeCheck_cases (env := env') hsm' hfs' with ⟨h1', h2'⟩ | ⟨-, l', h2'⟩ | ⟨-, h2', -⟩
    · obtain ⟨P, Q, hP, -⟩ := h1
      exact absurd (e1.2 ⟨P, hP⟩) h1'
    · exact .inr ⟨_, _, h2, h2', rfl, rfl, rfl⟩
    · exact absurd (e2.2 h1) h2'
  · rcases alternativeCheck_cases (env := env') hsm' hfs' with ⟨h1', h2'⟩ | ⟨h1', -⟩ | ⟨-, -, h3'⟩
    · exact absurd (e1.2 h1) h1'
    · exact absurd (e2.1 h1') h2
    · exact .inr ⟨_, _, h3, h3', rfl, rfl, rfl⟩

end Renamed

/-! ### Active calls -/

section
variable {env : Env} {f : Fbas} {p : Params} {a : Analysis}

/-- What is known about the caches: the verdict is only stored together with the quorums. -/
def Tidy (a : Analysis) : Prop := a.mq = none → a.hqi = none

theorem At.mbs_eq (h : At env f p a) (d : ℕ) (b : Borrows) :
    ∃ a', minimalBlockingSetsShrunken env (d + 1) b a = .ok (p.B, a') ∧ At env f p a' ∧
      a'.mq = a.mq ∧ a'.hqi = a.hqi := by
  rw [minimalBlockingSetsShrunken, cachedComputation]
  rcases h.mbs with hm | ⟨hm, hc⟩
  · rw [hm]; exact ⟨a, rfl, h, rfl, rfl⟩
  · have hb : a.mq.isNone = false := by
      rcases h.known with h' | h'
      · cases hh : a.mq with
        | none => exact absurd hh h'
        | some _ => rfl
      · exact absurd hm h'
    rw [hm]
    dsimp only
    rw [hb, fromFbasShrunken, h.fs, hc]
    simp only [Bool.false_and, if_true, Bool.false_eq_true, if_false]
    exact ⟨_, rfl, ⟨h.orig, h.fs, h.sm, h.mq, .inl rfl, .inr (by simp), h.hqi, h.mss, h.split⟩, rfl, rfl⟩

theorem Start.mbs_eq {fR : Fbas} (h : Start env f fR a) (hR : IsShrunken f (f.relevantNodes env) fR)
    (hp : ModeB env f fR p) (d : ℕ) :
    ∃ a', minimalBlockingSetsShrunken env (d + 4) free a = .ok (p.B, a') ∧ At env f p a' ∧
      a'.mq = none ∧ a'.hqi = none := by
  obtain ⟨BR, hB, hK, hpB⟩ := hp.BR
  have hsub : ∀ S ∈ BR, S ⊆ Finset.range (f.relevantNodes env).card := by
    intro S hS
    rw [← hR.subset]
    exact findMinimalBlockingSets_subset env hR.wf hB hS
  have hV : involvedNodes BR ⊆ Finset.range (f.relevantNodes env).card :=
    unionAll_subset.2 hsub
  unfold Start at h
  subst h
  rw [minimalBlockingSetsShrunken, cachedComputation]
  dsimp only
  rw [fromFbasShrunken, hB]
  simp only [Option.isNone_none, Bool.and_self, if_true]
  rw [shrinkIdSpaceToTopTier, topTierShrunken, if_neg (by simp), minimalBlockingSetsShrunken,
    cachedComputation]
  dsimp only
  rw [shrinkToTopTier_ok (K := p.K) rfl rfl hV hK hp.sh (by simp)
    (by rfl : reshrinkCache _ _ none = .ok none) (reshrinkCache_ok hsub hK)]
  dsimp only
  rw [← hpB]
  exact ⟨_, rfl, ⟨rfl, rfl, rfl, .inr ⟨rfl, hp.Q⟩, .inl rfl, .inr (by simp), .inl rfl, .inl rfl,
    hp.split⟩, rfl, rfl⟩

theorem Start.call_blocking_eq {fR : Fbas} (h : Start env f fR a)
    (hR : IsShrunken f (f.relevantNodes env) fR) (hp : ModeB env f fR p) :
    ∃ a', At env f p a' ∧ a.call env .minimalBlockingSets = .ok (.sets (p.B.map (unSet p.K)), a') ∧
      a'.mq = none ∧ a'.hqi = none := by
  obtain ⟨a', h1, h2, h3, h4⟩ := h.mbs_eq hR hp 4
  refine ⟨a', h2, ?_, h3, h4⟩
  simp only [Analysis.call, Analysis.minimalBlockingSets, answerSets, show depth = 4 + 4 from rfl,
    h1, unwrap_shrunken h2.sm hp.good.B]

/-- Answers of an object with the values `p`; if the minimal quorums have not been computed, the top
tier is computed from blocking sets. -/
def answerIn (p : Params) (known : Bool) : Call → Option Answer
  | .topTier => some (.set (unSet p.K (involvedNodes (if known then p.Q else p.B))))
  | c => answerOf p c

theorem At.call_eq (h : At env f p a) (ht : Tidy a) (hg : p.Good) {c : Call} {ans : Answer}
    (hans : answerIn p a.mq.isSome c = some ans) :
    ∃ a', At env f p a' ∧ Tidy a' ∧ a.call env c = .ok (ans, a') ∧
      (a'.mq.isSome = (a.mq.isSome || !(c == .minimalBlockingSets || c == .topTier))) := by
  cases c with
  | hasQuorumIntersection =>
    have key : ∃ a', At env f p a' ∧ a'.mq.isSome = true ∧
        a.call env .hasQuorumIntersection = .ok (.bool (verdictOf p.Q), a') := by
      simp only [Analysis.call, Analysis.hasQuorumIntersection]
      rw [hasQuorumIntersectionFromShrunken, cachedComputation]
      rcases h.hqi with hm | hm
      · rw [hm]
        dsimp only
        obtain ⟨a', h1, h2, h3⟩ := h.mqs 7 free
        rw [show depth = 7 + 1 from rfl, h1]
        simp only [Bool.false_eq_true, if_false]
        refine ⟨{ a' with hqi := some (verdictOf p.Q) },
          ⟨h2.orig, h2.fs, h2.sm, h2.mq, h2.mbs, h2.known, .inr rfl, h2.mss, h2.split⟩, ?_, rfl⟩
        simp [h3]
      · rw [hm]
        refine ⟨a, h, ?_, rfl⟩
        cases hq : a.mq with
        | none =>
          have := ht hq
          rw [hm] at this
          cases this
        | some _ => rfl
    obtain ⟨a', h1, h2, h3⟩ := key
    refine ⟨a', h1, (fun hn => by rw [hn] at h2; cases h2), ?_, by simp [h2]⟩
    rw [h3, ← Option.some.inj hans]
  | minimalQuorums =>
    obtain ⟨a', h1, h2, h3⟩ := h.mqs 7 free
    refine ⟨a', h2, (fun hn => by rw [h3] at hn; cases hn), ?_, by simp [h3]⟩
    rw [← Option.some.inj hans]
    simp only [Analysis.call, Analysis.minimalQuorums, answerSets, show depth = 7 + 1 from rfl, h1,
      unwrap_shrunken h2.sm hg.Q]
  | minimalBlockingSets =>
    obtain ⟨a', h1, h2, h3, h4⟩ := h.mbs_eq 7 free
    refine ⟨a', h2, fun hn => h4 ▸ ht (h3 ▸ hn), ?_, by simp [h3]⟩
    rw [← Option.some.inj hans]
    simp only [Analysis.call, Analysis.minimalBlockingSets, answerSets,
      show depth = 7 + 1 from rfl, h1, unwrap_shrunken h2.sm hg.B]
  | minimalSplittingSets =>
    obtain ⟨a', h1, h2, h3⟩ := h.mss' free
    refine ⟨a', h2, fun hn => absurd hn h3, ?_, ?_⟩
    · rw [← Option.some.inj hans]
      simp only [Analysis.call, Analysis.minimalSplittingSets, answerSets, h1,
        unwrap_shrunken h2.sm hg.S]
    · cases hq : a'.mq with
      | none => exact absurd hq h3
      | some _ => simp
  | topTier =>
    have key : ∃ a', At env f p a' ∧ Tidy a' ∧ a'.mq.isSome = a.mq.isSome ∧
        topTierShrunken env 8 free a =
          .ok (involvedNodes (if a.mq.isSome then p.Q else p.B), a') := by
      rw [topTierShrunken]
      cases hq : a.mq with
      | some Q =>
        rw [if_pos (by simp)]
        obtain ⟨a', h1, h2, h3⟩ := h.mqs 6 free
        rw [h1]
        exact ⟨a', h2, (fun hn => by rw [h3] at hn; cases hn), by simp [h3], rfl⟩
      | none =>
        have hb : a.mbs.isNone = false := by
          rcases h.known with h' | h'
          · exact absurd hq h'
          · cases hh : a.mbs with
            | none => exact absurd hh h'
            | some _ => rfl
        rw [hb, if_neg (by simp)]
        obtain ⟨a', h1, h2, h3, h4⟩ := h.mbs_eq 6 free
        rw [h1]
        exact ⟨a', h2, fun hn => h4 ▸ ht hq, by simp [h3, hq], rfl⟩
    obtain ⟨a', h1, h2, h3, h4⟩ := key
    refine ⟨a', h1, h2, ?_, by simp [h3]⟩
    rw [← Option.some.inj hans]
    refine call_topTier h4 h1.sm (unionAll_subset.2 ?_)
    split
    · exact hg.Q
    · exact hg.B
  | allNodes => cases hans
  | satisfiableNodes => cases hans
  | unsatisfiableNodes => cases hans
  | alternativeCheck => cases hans
  | symmetricTopTier => cases hans
  | symmetricClusters => cases hans

end

/-! ### Simulation -/

section
variable {σ : Equiv.Perm ℕ} {f g fR gR : Fbas} {env env' : Env} {pq pb pq' pb' : Params}

/-- Corresponding states. -/
def Sim (env env' : Env) (f g fR gR : Fbas) (pq pb pq' pb' : Params)
    (a b : Analysis) : Prop :=
  (Start env f fR a ∧ Start env' g gR b) ∨
  (At env f pq a ∧ At env' g pq' b ∧ a.mq ≠ none ∧ b.mq ≠ none) ∨
  (Calm f ∧ At env f pb a ∧ At env' g pb' b ∧ Tidy a ∧ Tidy b ∧ b.mq.isSome = a.mq.isSome)

theorem Pair.answer {H : Prop} {p p' : Params} {n : ℕ} (hp : Pair σ H p p') {k : Bool} {c : Call}
    (hH : H ∨ (k = true ∧ c ≠ .minimalBlockingSets)) {ans ans' : Answer}
    (h : answerIn p k c = some ans) (h' : answerIn p' k c = some ans') : MovedAnswer σ n ans ans' := by
  cases c with
  | hasQuorumIntersection =>
    rw [← Option.some.inj h, ← Option.some.inj h']
    exact hp.v
  | minimalQuorums =>
    rw [← Option.some.inj h, ← Option.some.inj h']
    exact hp.Q
  | minimalBlockingSets =>
    rw [← Option.some.inj h, ← Option.some.inj h']
    exact hp.B (hH.resolve_right (fun h => h.2 rfl))
  | minimalSplittingSets =>
    rw [← Option.some.inj h, ← Option.some.inj h']
    exact hp.S
  | topTier =>
    rw [← Option.some.inj h, ← Option.some.inj h']
    show unSet _ _ = img σ (unSet _ _)
    rw [unSet_involvedNodes, unSet_involvedNodes]
    cases k with
    | true => exact involvedNodes_img hp.Q
    | false => exact involvedNodes_img (hp.B (hH.resolve_right (fun h => by cases h.1)))
  | allNodes => cases h
  | satisfiableNodes => cases h
  | unsatisfiableNodes => cases h
  | alternativeCheck => cases h
  | symmetricTopTier => cases h
  | symmetricClusters => cases h

theorem answerIn_of_active {c : Call} (ha : ∀ p, ∃ ans, answerOf p c = some ans) (p : Params) (k : Bool) :
    ∃ ans, answerIn p k c = some ans := by
  cases c with
  | topTier => exact ⟨_, rfl⟩
  | _ => exact ha p

theorem answerIn_true (p : Params) (c : Call) : answerIn p true c = answerOf p c := by
  cases c <;> rfl

/-- The constants of two objects. -/
structure Constants (σ : Equiv.Perm ℕ) (env env' : Env) (f g fR gR : Fbas)
    (pq pb pq' pb' : Params) : Prop where
  ren : Renamed σ f g
  wf : WF f
  hR : IsShrunken f (f.relevantNodes env) fR
  hR' : IsShrunken g (g.relevantNodes env') gR
  hq : ModeQ env f fR pq
  hq' : ModeQ env' g gR pq'
  hb : ModeB env f fR pb
  hb' : ModeB env' g gR pb'

theorem Sim.call (s : Constants σ env env' f g fR gR pq pb pq' pb') {a b : Analysis}
    (h : Sim env env' f g fR gR pq pb pq' pb' a b) (c : Call)
    (hc : Calm f ∨ (Start env f fR a → c ≠ .minimalBlockingSets)) :
    (a.call env c = .error .assertion ∧ b.call env' c = .error .assertion) ∨
    ∃ ans ans' a' b', a.call env c = .ok (ans, a') ∧ b.call env' c = .ok (ans', b') ∧
      Sim env env' f g fR gR pq pb pq' pb' a' b' ∧
      (Start env f fR a' → Start env f fR a ∧ Passive c) ∧
      (Calm f ∨ c ≠ .minimalBlockingSets → MovedAnswer σ f.nodes.length ans ans') := by
  have ho : a.fbasOriginal = f ∧ b.fbasOriginal = g := by
    rcases h with ⟨h1, h2⟩ | ⟨h1, h2, -⟩ | ⟨-, h1, h2, -⟩
    · exact ⟨by rw [h1], by rw [h2]⟩
    · exact ⟨h1.orig, h2.orig⟩
    · exact ⟨h1.orig, h2.orig⟩
  rcases call_cases c with hs | rfl | ha
  · obtain ⟨ans, ans', h1, h2, h3⟩ := s.ren.static (env := env) (env' := env') s.wf ho.1 ho.2 hs
    exact .inr ⟨ans, ans', a, b, h1, h2, h, fun h => ⟨h, hs.1⟩, fun _ => h3⟩
  · have key : ∃ K K' τ, a.shrinkManager = ShrinkManager.new K ∧ IsShrunken f K a.fbasShrunken ∧
        b.shrinkManager = ShrinkManager.new K' ∧ IsShrunken g K' b.fbasShrunken ∧
        Renamed τ a.fbasShrunken b.fbasShrunken := by
      rcases h with ⟨h1, h2⟩ | ⟨h1, h2, -⟩ | ⟨hn, h1, h2, -⟩
      · obtain ⟨τ, hτ, -⟩ := s.ren.shrunken s.hR (s.ren.relevantNodes s.wf env env' ▸ s.hR')
        exact ⟨_, _, τ, by rw [h1], by rw [h1]; exact s.hR, by rw [h2], by rw [h2]; exact s.hR',
          by rw [h1, h2]; exact hτ⟩
      · obtain ⟨τ, hτ⟩ := (s.ren.pairQ s.wf s.hR s.hR' s.hq s.hq').f'
        exact ⟨_, _, τ, h1.sm, h1.fs ▸ s.hq.is, h2.sm, h2.fs ▸ s.hq'.is, by rw [h1.fs, h2.fs]; exact hτ⟩
      · obtain ⟨τ, hτ⟩ := (s.ren.pairB s.wf s.hR s.hR' hn s.hb s.hb').f'
        exact ⟨_, _, τ, h1.sm, h1.fs ▸ s.hb.is, h2.sm, h2.fs ▸ s.hb'.is, by rw [h1.fs, h2.fs]; exact hτ⟩
    obtain ⟨K, K', τ, h1, h2, h3, h4, h5⟩ := key
    rcases Renamed.alternative (env := env) (env' := env') (σ := σ) h1 h2 h3 h4 h5 with h6 | ⟨ans, ans', h6, h7, h8⟩
    · exact .inl h6
    · exact .inr ⟨ans, ans', a, b, h6, h7, h, fun h => ⟨h, by simp [Passive]⟩, fun _ => h8⟩
  · right
    have notStart : ∀ {p : Params} {a : Analysis}, At env f p a → ¬ Start env f fR a := by
      intro p a ha hs
      rw [hs] at ha
      rcases ha.known with h | h <;> exact h rfl
    have hact : ¬ Passive c := by
      intro hp
      obtain ⟨ans, hans⟩ := ha pq
      obtain ⟨h1, h2, h3, h4, h5⟩ := hp
      cases c <;> simp_all [answerOf]
    rcases h with ⟨h1, h2⟩ | ⟨h1, h2, h3, h4⟩ | ⟨hn, h1, h2, h3, h4, h5⟩
    · by_cases hbl : c = .minimalBlockingSets
      · subst hbl
        have hn := hc.resolve_right (fun h => h h1 rfl)
        have hp := s.ren.pairB s.wf s.hR s.hR' hn s.hb s.hb'
        obtain ⟨a', e1, e2, e3, e4⟩ := h1.call_blocking_eq s.hR s.hb
        obtain ⟨b', e1', e2', e3', e4'⟩ := h2.call_blocking_eq s.hR' s.hb'
        exact ⟨_, _, a', b', e2, e2', .inr (.inr ⟨hn, e1, e1', fun _ => e4, fun _ => e4',
          by rw [e3, e3']⟩), fun h => absurd h (notStart e1), fun _ => hp.B hn⟩
      · have hp := s.ren.pairQ s.wf s.hR s.hR' s.hq s.hq'
        obtain ⟨ans, hans⟩ := ha pq
        obtain ⟨ans', hans'⟩ := ha pq'
        obtain ⟨a', e1, e2, e3⟩ := h1.call s.hR s.hq hans hbl
        obtain ⟨b', e1', e2', e3'⟩ := h2.call s.hR' s.hq' hans' hbl
        refine ⟨ans, ans', a', b', e3, e3', .inr (.inl ⟨e1, e1', e2, e2'⟩),
          fun h => absurd h (notStart e1), fun hH => ?_⟩
        exact hp.answer (k := true) (hH.imp id (fun h => ⟨rfl, h⟩)) (by rw [answerIn_true, hans])
          (by rw [answerIn_true, hans'])
    · have hp := s.ren.pairQ s.wf s.hR s.hR' s.hq s.hq'
      have hk : a.mq.isSome = true := by
        cases hq : a.mq with
        | none => exact absurd hq h3
        | some _ => rfl
      have hk' : b.mq.isSome = true := by
        cases hq : b.mq with
        | none => exact absurd hq h4
        | some _ => rfl
      obtain ⟨ans, hans⟩ := answerIn_of_active ha pq true
      obtain ⟨ans', hans'⟩ := answerIn_of_active ha pq' true
      obtain ⟨a', e1, -, e2, e3⟩ := h1.call_eq (fun hq => absurd hq h3) s.hq.good (hk ▸ hans)
      obtain ⟨b', e1', -, e2', e3'⟩ := h2.call_eq (fun hq => absurd hq h4) s.hq'.good (hk' ▸ hans')
      refine ⟨ans, ans', a', b', e2, e2', .inr (.inl ⟨e1, e1', ?_, ?_⟩),
          fun h => absurd h (notStart e1), fun hH => ?_⟩
      · intro hq
        rw [hq, hk] at e3
        simp at e3
      · intro hq
        rw [hq, hk'] at e3'
        simp at e3'
      · exact hp.answer (k := true) (hH.imp id (fun h => ⟨rfl, h⟩)) hans hans'
    · have hp := s.ren.pairB s.wf s.hR s.hR' hn s.hb s.hb'
      obtain ⟨ans, hans⟩ := answerIn_of_active ha pb a.mq.isSome
      obtain ⟨ans', hans'⟩ := answerIn_of_active ha pb' b.mq.isSome
      obtain ⟨a', e1, e4, e2, e3⟩ := h1.call_eq h3 s.hb.good hans
      obtain ⟨b', e1', e4', e2', e3'⟩ := h2.call_eq h4 s.hb'.good hans'
      refine ⟨ans, ans', a', b', e2, e2', .inr (.inr ⟨hn, e1, e1', e4, e4', by rw [e3, e3', h5]⟩),
          fun h => absurd h (notStart e1), fun hH => ?_⟩
      rw [h5] at hans'
      exact hp.answer (.inl hn) hans hans'

theorem Sim.calls (s : Constants σ env env' f g fR gR pq pb pq' pb') {a b : Analysis}
    (h : Sim env env' f g fR gR pq pb pq' pb' a b) (history : List Call)
    (hc : Calm f ∨ (Start env f fR a → ¬ BlockingFirst history)) :
    (calls env history a = .error .assertion ∧ calls env' history b = .error .assertion) ∨
    ∃ a' b', calls env history a = .ok a' ∧ calls env' history b = .ok b' ∧
      Sim env env' f g fR gR pq pb pq' pb' a' b' := by
  induction history generalizing a b with
  | nil => exact .inr ⟨a, b, rfl, rfl, h⟩
  | cons c cs ih =>
    rw [Analysis.calls, Analysis.calls]
    rcases h.call s c (hc.imp id (fun h hs he => h hs (blockingFirst_cons.2 (.inl he))))
      with ⟨h1, h2⟩ | ⟨ans, ans', a', b', h1, h2, h3, h4, -⟩
    · rw [h1, h2]
      exact .inl ⟨rfl, rfl⟩
    · rw [h1, h2]
      refine ih h3 (hc.imp id (fun h hs hb => ?_))
      obtain ⟨h5, h6⟩ := h4 hs
      exact h h5 (blockingFirst_cons.2 (.inr ⟨h6, hb⟩))

/-- Objects for FBASs that differ in the IDs of nodes give corresponding answers. -/
theorem Renamed.answers (h : Renamed σ f g) (hwf : WF f) (env env' : Env) (history : List Call)
    (c : Call) (hc : Calm f ∨ (¬ BlockingFirst history ∧ c ≠ .minimalBlockingSets)) :
    (answerAfter env f history c = .error .assertion ∧
      answerAfter env' g history c = .error .assertion) ∨
    ∃ ans ans', answerAfter env f history c = .ok ans ∧ answerAfter env' g history c = .ok ans' ∧
      MovedAnswer σ f.nodes.length ans ans' := by
  obtain ⟨fR, a, h1, h2, h3⟩ := start_new env f
  obtain ⟨gR, b, h1', h2', h3'⟩ := start_new env' g
  obtain ⟨pq, hq⟩ := exists_modeQ env f h2
  obtain ⟨pb, hb⟩ := exists_modeB env f h2
  obtain ⟨pq', hq'⟩ := exists_modeQ env' g h2'
  obtain ⟨pb', hb'⟩ := exists_modeB env' g h2'
  have s : Constants σ env env' f g fR gR pq pb pq' pb' := ⟨h, hwf, h2, h2', hq, hq', hb, hb'⟩
  have h0 : Sim env env' f g fR gR pq pb pq' pb' a b := .inl ⟨h3, h3'⟩
  unfold answerAfter
  rw [h1, h1']
  dsimp only
  rcases h0.calls s history (hc.imp id (fun h _ => h.1))
    with ⟨e1, e2⟩ | ⟨a', b', e1, e2, e3⟩
  · rw [e1, e2]
    exact .inl ⟨rfl, rfl⟩
  · rw [e1, e2]
    dsimp only
    rcases e3.call s c (hc.imp id (fun h _ => h.2)) with ⟨e4, e5⟩ | ⟨ans, ans', a'', b'', e4, e5, -, -, e6⟩
    · rw [e4, e5]
      exact .inl ⟨rfl, rfl⟩
    · rw [e4, e5]
      exact .inr ⟨ans, ans', rfl, rfl, e6 (hc.imp id (fun h => h.2))⟩

end
end FA
