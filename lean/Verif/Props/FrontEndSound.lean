import Verif.Props.FrontEnd

/-!
# C12, C14, C19, C21, C27, C29: what `Analysis` reports for FBASs that are not well-shaped

Which parts of the results can be relied on for all FBASs and all histories.
-/

namespace FA
open Spec Analysis

section
variable {env : Env} {f fR : Fbas} {p : Params}

/-- Every answer is the one of one of the two modes. -/
theorem answer_modes (env : Env) (f : Fbas) (history : List Call) (c : Call)
    (hc : c ≠ .topTier) (ha : answerAfter env f history c ≠ .error .assertion) :
    ∃ fR p, IsShrunken f (f.relevantNodes env) fR ∧ (ModeQ env f fR p ∨ ModeB env f fR p) ∧
      ∀ ans, answerOf p c = some ans → answerAfter env f history c = .ok ans := by
  obtain ⟨fR, a, hnew, hR, hst⟩ := start_new env f
  obtain ⟨p, hp⟩ := exists_modeQ env f hR
  obtain ⟨pb, hpb⟩ := exists_modeB env f hR
  have hat : ∀ {p a'}, p.Good → At env f p a' → ∀ ans, answerOf p c = some ans →
      (a'.call env c).map Prod.fst = .ok ans := by
    intro p a' hg h ans hans
    obtain ⟨a'', _, _, h4 | ⟨hc', _⟩⟩ := h.call hg hans
    · rw [h4]; rfl
    · exact absurd hc' hc
  simp only [answerAfter, hnew] at ha ⊢
  rcases Reach.calls hR hp hpb (.inl hst : Reach env f fR p pb a) history with
    ⟨a', h1, h2⟩ | ⟨_, h1⟩
  · simp only [h1]
    rcases h2 with h2 | ⟨h2, _⟩ | h2
    · by_cases hb : c = .minimalBlockingSets
      · subst hb
        obtain ⟨a'', _, h4⟩ := h2.call_blocking hR hpb
        refine ⟨fR, pb, hR, .inr hpb, fun ans hans => ?_⟩
        rw [h4, ← Option.some.inj hans]; rfl
      · refine ⟨fR, p, hR, .inl hp, fun ans hans => ?_⟩
        obtain ⟨a'', _, _, h4⟩ := h2.call hR hp hans hb
        rw [h4]; rfl
    · exact ⟨fR, p, hR, .inl hp, hat hp.good h2⟩
    · exact ⟨fR, pb, hR, .inr hpb, hat hpb.good h2⟩
  · rw [h1] at ha
    exact absurd rfl ha

theorem Reach.answers (hwf : WF f) (hR : IsShrunken f (f.relevantNodes env) fR) {pq pb : Params}
    {a : Analysis} (hq : ModeQ env f fR pq) (hb : ModeB env f fR pb) (h : Reach env f fR pq pb a) :
    ∃ p : Params, IsShrunken f p.K p.f' ∧ (∀ S, S ∈ p.Q ↔ IsMinQuorum p.f' S) ∧
      (if verdictOf p.Q = true then findMinimalSplittingSets env p.f' p.Q else .ok [∅]) = .ok p.S ∧
      ∀ c, c ≠ .topTier → c ≠ .minimalBlockingSets → ∀ ans, answerOf p c = some ans →
        (a.call env c).map Prod.fst = .ok ans := by
  have hat : ∀ {p}, p.Good → At env f p a → ∀ c, c ≠ .topTier → c ≠ .minimalBlockingSets →
      ∀ ans, answerOf p c = some ans → (a.call env c).map Prod.fst = .ok ans := by
    intro p hg h c hc _ ans hans
    obtain ⟨a'', _, _, h4 | ⟨hc', _⟩⟩ := h.call hg hans
    · rw [h4]; rfl
    · exact absurd hc' hc
  rcases h with h | ⟨h, _⟩ | h
  · refine ⟨pq, hq.is, (hq.exact hwf hR).1.Q, hq.split, fun c hc hb ans hans => ?_⟩
    obtain ⟨a'', _, _, h4⟩ := h.call hR hq hans hb
    rw [h4]; rfl
  · exact ⟨pq, hq.is, (hq.exact hwf hR).1.Q, hq.split, hat hq.good h⟩
  · refine ⟨pb, hb.is, ?_, hb.split, hat hb.good h⟩
    obtain ⟨L, e1, e2, _⟩ := findMinimalQuorums_spec env hb.is.wf
    rw [hb.Q] at e1
    obtain rfl := Except.ok.inj e1
    exact e2

theorem blocking_subset {f : Fbas} {env : Env} (hwf : WF f) {L : List NodeSet}
    (hL : findMinimalBlockingSets env f = .ok L) {S : NodeSet} (hS : S ∈ L) : S ⊆ f.allNodes := by
  have hKs := consensusClusters_spec env hwf
  rw [findMinimalBlockingSets_eq env hwf] at hL
  obtain rfl := Except.ok.inj hL
  rw [sort_mem, List.mem_map] at hS
  obtain ⟨c, hc, rfl⟩ := hS
  rw [unionAll_subset]
  intro T hT
  obtain ⟨_, hc⟩ := mem_multiCartesianProduct.1 hc
  rw [List.forall₂_map_right_iff] at hc
  obtain ⟨i, hi, rfl⟩ := List.getElem_of_mem hT
  have hi' : i < (consensusClusters env f).length := by rw [← hc.length_eq]; exact hi
  have := List.Forall₂.get hc hi hi'
  simp only [List.get_eq_getElem] at this
  have hK := List.getElem_mem hi'
  exact ((clusterBlocking_sound env hKs hK this).1.trans (hKs.sat _ hK)).trans
    f.satisfiableNodes_spec.sub

theorem mode_blocking_sound (hwf : WF f) (hR : IsShrunken f (f.relevantNodes env) fR)
    (hp : ModeQ env f fR p ∨ ModeB env f fR p) : ∀ S ∈ p.B.map (unSet p.K), Blocking f S := by
  rcases hp with hp | hp
  · intro S hS
    obtain ⟨T, hT, rfl⟩ := List.mem_map.1 hS
    exact (hp.is.blocking (Covers.of_topTier (hp.exact hwf hR).1.K) (hp.good.B T hT)).1
      (findMinimalBlockingSets_sound env hp.is.wf hp.B hT)
  · obtain ⟨BR, hB, hK, hpB⟩ := hp.BR
    rw [hpB, map_reshrink hK]
    intro S hS
    obtain ⟨T, hT, rfl⟩ := List.mem_map.1 hS
    exact (hR.blocking (covers_relevant hwf) (hR.subset ▸ blocking_subset hR.wf hB hT)).1
      (findMinimalBlockingSets_sound env hR.wf hB hT)

theorem mode_quorums_sound (hwf : WF f) (hR : IsShrunken f (f.relevantNodes env) fR)
    (hp : ModeQ env f fR p ∨ ModeB env f fR p) : ∀ S ∈ p.Q.map (unSet p.K), IsMinQuorum f S := by
  intro S hS
  obtain ⟨T, hT, rfl⟩ := List.mem_map.1 hS
  rcases hp with hp | hp
  · exact (hp.is.isMinQuorum.1 (((hp.exact hwf hR).1.Q T).1 hT)).2
  · obtain ⟨L, h1, h2, _⟩ := findMinimalQuorums_spec env hp.is.wf
    rw [hp.Q] at h1
    obtain rfl := Except.ok.inj h1
    exact (hp.is.isMinQuorum.1 ((h2 T).1 hT)).2

/-- The two quorum intersection checks on one object. -/
theorem answer_agree (env : Env) (hwf : WF f) (history : List Call) {b : Bool}
    {w : Option (List NodeSet)}
    (h : answerAfter env f history .alternativeCheck = .ok (.verdict b w)) :
    answerAfter env f history .hasQuorumIntersection = .ok (.bool b) := by
  obtain ⟨fR, a, hnew, hR, hst⟩ := start_new env f
  obtain ⟨p, hp⟩ := exists_modeQ env f hR
  obtain ⟨pb, hpb⟩ := exists_modeB env f hR
  have hv := (hp.exact hwf hR).1.verdict hp.is
  have key : ∀ (a' : Analysis) (K : NodeSet) (v : Bool), a'.shrinkManager = ShrinkManager.new K →
      IsShrunken f K a'.fbasShrunken → (v = true ↔ QuorumIntersection a'.fbasShrunken) →
      (a'.call env .alternativeCheck).map Prod.fst = .ok (.verdict b w) → v = b := by
    intro a' K v hsm hfs hv h
    rcases alternativeCheck_error (env := env) (p := ⟨K, fR, [], [], []⟩) hsm hfs
      with ⟨_, h1⟩ | ⟨l, h1, h3, h4, h5⟩ | ⟨h3, h1, h4⟩
    · rw [h1] at h; cases h
    · rw [h1] at h
      simp only [Analysis.call] at h1
      injection h with h
      injection h with h _
      subst h
      rw [Bool.eq_false_iff, Ne, hv]
      intro hqi
      rcases findNonintersectingQuorums_spec env hfs.wf with ⟨_, h2⟩ | ⟨L, _, h2, h6, h7⟩ | ⟨_, h2, _⟩
      · simp only [Analysis.alternativeCheck, h2] at h1; cases h1
      · match L, h2, h6, h7 with
        | P :: Q :: L, _, h6, h7 =>
          obtain ⟨x, hx, hx'⟩ := hqi.2 P Q (h7 P (by simp)) (h7 Q (by simp))
          exact Finset.disjoint_left.1 ((List.pairwise_cons.1 h6).1 Q (by simp)) hx hx'
      · simp only [Analysis.alternativeCheck, h2] at h1; cases h1
    · rw [h1] at h
      injection h with h
      injection h with h _
      subst h
      exact hv.2 ⟨h3, fun P Q hP hQ => Finset.not_disjoint_iff.1 (h4 P Q hP hQ)⟩
  have hat : ∀ {p a'}, p.Good → IsShrunken f p.K p.f' → (∀ S, S ∈ p.Q ↔ IsMinQuorum p.f' S) →
      At env f p a' → (a'.call env .alternativeCheck).map Prod.fst = .ok (.verdict b w) →
      (a'.call env .hasQuorumIntersection).map Prod.fst = .ok (.bool b) := by
    intro p a' hg his hQ h h'
    obtain ⟨a'', _, _, h4 | ⟨hc', _⟩⟩ := h.call hg (c := .hasQuorumIntersection) rfl
    · rw [h4]
      have := key a' p.K (verdictOf p.Q) h.sm (h.fs ▸ his) (h.fs ▸ verdictOf_iff hQ) h'
      rw [← this]; rfl
    · cases hc'
  simp only [answerAfter, hnew] at h ⊢
  rcases Reach.calls hR hp hpb (.inl hst : Reach env f fR p pb a) history with
    ⟨a', h1, h2⟩ | ⟨_, h1⟩
  · simp only [h1] at h ⊢
    rcases h2 with h2 | ⟨h2, _⟩ | h2
    · obtain ⟨a'', _, _, h4⟩ := h2.call hR hp (c := .hasQuorumIntersection) rfl (by simp)
      have := key a' (f.relevantNodes env) (verdictOf p.Q) (by rw [h2]) (by rw [h2]; exact hR)
        (by rw [h2, hv]; exact (hR.quorumIntersection (covers_relevant hwf)).symm) h
      rw [h4, ← this]; rfl
    · exact hat hp.good hp.is (hp.exact hwf hR).1.Q h2 h
    · refine hat hpb.good hpb.is ?_ h2 h
      obtain ⟨L, e1, e2, _⟩ := findMinimalQuorums_spec env hpb.is.wf
      rw [hpb.Q] at e1
      obtain rfl := Except.ok.inj e1
      exact e2
  · rw [h1] at h
    cases h

end
end FA

namespace FA.Props
open FA Spec Analysis

theorem ok_of_answer {env : Env} {f : Fbas} {history : List Call} {c : Call} {ans : Answer}
    (h : answerAfter env f history c = .ok ans) : answerAfter env f history c ≠ .error .assertion := by
  rw [h]; simp

/-- C27, for all FBASs and all histories: every set that is reported as a minimal quorum is a minimal
quorum of the original FBAS. (The list can be incomplete, see `C27_counterexample`.) -/
theorem C27_sound (env : Env) (f : Fbas) (hwf : WF f) (history : List Call) (L : List NodeSet)
    (h : answerAfter env f history .minimalQuorums = .ok (.sets L)) : ∀ S ∈ L, IsMinQuorum f S := by
  obtain ⟨fR, p, hR, hp, h1⟩ := answer_modes env f history .minimalQuorums (by simp) (ok_of_answer h)
  have := h1 _ rfl
  rw [h] at this
  injection this with this
  injection this with this
  subst this
  exact mode_quorums_sound hwf hR hp

/-- C29, for all FBASs and all histories: every reported set is a blocking set of the original FBAS.
(The list can be incomplete, and the sets need not be minimal, see `C16_counterexample_duplicates`
and `C29_counterexample`.) -/
theorem C29_sound (env : Env) (f : Fbas) (hwf : WF f) (history : List Call) (L : List NodeSet)
    (h : answerAfter env f history .minimalBlockingSets = .ok (.sets L)) :
    ∀ S ∈ L, Blocking f S := by
  obtain ⟨fR, p, hR, hp, h1⟩ :=
    answer_modes env f history .minimalBlockingSets (by simp) (ok_of_answer h)
  have := h1 _ rfl
  rw [h] at this
  injection this with this
  injection this with this
  subst this
  exact mode_blocking_sound hwf hR hp

/-- Concrete case: the reported blocking set {0, 1} is not minimal. -/
example : answerAfter (Ref.refEnv 2) fbasBlockDup [] .minimalBlockingSets =
      .ok (.sets [{1}, {0, 1}, {0, 1}]) ∧ WF fbasBlockDup ∧
    ¬ IsMinBlocking fbasBlockDup {0, 1} :=
  ⟨Ref.ok_of (by decide +kernel), fbasBlockDup_wf, by decide +kernel⟩

/-- C29 on a new object, exactly when it holds: iff there is a quorum and the FBAS restricted to the
relevant nodes is well-shaped.

Missing for all FBASs: symmetric clusters in which a node is listed twice and some node is a quorum on
its own (see `C16_exact_iff_partial`). -/
theorem C29_exact_iff_partial (env : Env) (f : Fbas) (hwf : WF f)
    (hone : ∀ f' sm, f.shrunken (f.relevantNodes env) = .ok (f', sm) →
      ∀ q, SymCluster f' q → ¬ DupFree q → ∀ x, Mentions q x → ¬ IsQuorum f' {x}) :
    (∃ L, answerAfter env f [] .minimalBlockingSets = .ok (.sets L) ∧
      ∀ S, S ∈ L ↔ IsMinBlocking f S) ↔
      (∃ Q, IsQuorum f Q) ∧ Shaped f (f.relevantNodes env) := by
  obtain ⟨fR, a, hnew, hR, hst⟩ := start_new env f
  obtain ⟨pb, hpb⟩ := exists_modeB env f hR
  obtain ⟨a'', _, h4⟩ := Start.call_blocking hst hR hpb
  have hans : answerAfter env f [] .minimalBlockingSets = .ok (.sets (pb.B.map (unSet pb.K))) := by
    simp only [answerAfter, hnew, Analysis.calls]
    rw [h4]; rfl
  have hc := covers_relevant (env := env) hwf
  obtain ⟨BR, hB, hK, hpB⟩ := hpb.BR
  rw [hpB, map_reshrink hK] at hans
  have hsubR : ∀ S ∈ BR, S ⊆ Finset.range (f.relevantNodes env).card :=
    fun S hS => hR.subset ▸ blocking_subset hR.wf hB hS
  obtain ⟨g, hg1, hg2⟩ := f.shrunken_ok (f.relevantNodes env)
  have hoR : ∀ q, SymCluster fR q → ¬ DupFree q → ∀ x, Mentions q x → ¬ IsQuorum fR {x} := by
    intro q hq hd x hx hQ
    obtain ⟨e1, e2⟩ := hR.qset_eq hg2
    have hQ' : IsQuorum g {x} := by
      have hx' := hR.quorum_subset hQ
      exact (hg2.isQuorum hx').2 ((hR.isQuorum hx').1 hQ)
    exact hone g _ hg1 q (symCluster_congr e1 e2 q hq) hd x hx hQ'
  have h16 := C16_exact_iff_partial env fR hR.wf hoR
  have hL : (∃ L, answerAfter env f [] .minimalBlockingSets = .ok (.sets L) ∧
      ∀ S, S ∈ L ↔ IsMinBlocking f S) ↔
      ∃ L, findMinimalBlockingSets env fR = .ok L ∧ ∀ S, S ∈ L ↔ IsMinBlocking fR S := by
    rw [hans, hB]
    constructor
    · rintro ⟨L, h1, h2⟩
      injection h1 with h1
      injection h1 with h1
      subst h1
      refine ⟨BR, rfl, fun S => ?_⟩
      rw [hR.isMinBlocking hc S]
      constructor
      · intro hS
        exact ⟨hsubR S hS, (h2 _).1 (List.mem_map_of_mem hS)⟩
      · rintro ⟨hS, hm⟩
        obtain ⟨T, hT, he⟩ := List.mem_map.1 ((h2 _).2 hm)
        rwa [← unSet_injOn (hsubR T hT) hS he]
    · rintro ⟨L, h1, h2⟩
      obtain rfl := Except.ok.inj h1
      refine ⟨_, rfl, fun S => ?_⟩
      rw [List.mem_map]
      constructor
      · rintro ⟨T, hT, rfl⟩
        exact ((hR.isMinBlocking hc T).1 ((h2 T).1 hT)).2
      · intro hS
        have hsub : S ⊆ f.relevantNodes env := by
          intro x hx
          obtain ⟨Q, hQ, hxQ⟩ := (C18_duality f x).2 ⟨S, hS, hx⟩
          exact hc Q hQ hxQ
        refine ⟨shrSet _ S, (h2 _).2 ((hR.isMinBlocking hc _).2 ⟨shrSet_subset _ _, ?_⟩),
          unSet_shrSet_of_subset hsub⟩
        rwa [unSet_shrSet_of_subset hsub]
  rw [hL, h16, hR.exists_quorum hc]
  refine and_congr_right (fun _ => ⟨fun h => (shapedOn_iff _ _).1 (fun f' hf' q hq => ?_),
    fun h => (shapedOn_iff _ _).2 h fR hR⟩)
  obtain ⟨e1, e2⟩ := hf'.qset_eq hR
  exact h q (symCluster_congr e1 e2 q hq)

/-- C14, for all FBASs and all histories: whenever the alternative check returns, it gives the same
verdict as `has_quorum_intersection` (on the same object, hence also if both are wrong). -/
theorem C14_agree (env : Env) (f : Fbas) (hwf : WF f) (history : List Call) (b : Bool)
    (w : Option (List NodeSet))
    (h : answerAfter env f history .alternativeCheck = .ok (.verdict b w)) :
    answerAfter env f history .hasQuorumIntersection = .ok (.bool b) :=
  answer_agree env hwf history h

/-- C14, for all FBASs and all histories: a witness consists of at least two pairwise disjoint
quorums of the original FBAS, and it is given iff the verdict is "false". In particular the verdict
"false" is always right. -/
theorem C14_sound (env : Env) (f : Fbas) (history : List Call) (b : Bool)
    (w : Option (List NodeSet))
    (h : answerAfter env f history .alternativeCheck = .ok (.verdict b w)) :
    (b = true ∧ w = none) ∨
    (b = false ∧ ∃ l, w = some l ∧ 2 ≤ l.length ∧ (∀ S ∈ l, IsQuorum f S) ∧
      l.Pairwise (fun P Q => ∀ x ∈ P, x ∉ Q)) := by
  obtain ⟨K, f', _, h1 | ⟨l, h1, h2, h3, h4⟩ | ⟨_, h1, _⟩⟩ := answer_alternative (f := f) env history
  · rw [h1] at h; cases h
  · rw [h1] at h
    cases h
    exact .inr ⟨rfl, l, rfl, h2, h4, h3.imp (fun h x hx hx' => Finset.disjoint_left.1 h hx hx')⟩
  · rw [h1] at h
    cases h
    exact .inl ⟨rfl, rfl⟩

/-- C12, for all FBASs and all histories: the verdict is that of the reported minimal quorums, and the
verdict "false" is right, except if no minimal quorum is reported. -/
theorem C12_sound (env : Env) (f : Fbas) (hwf : WF f) (history : List Call) (L : List NodeSet)
    (hL : answerAfter env f history .minimalQuorums = .ok (.sets L)) :
    ∃ b, answerAfter env f history .hasQuorumIntersection = .ok (.bool b) ∧
      (b = true ↔ L ≠ [] ∧ ∀ P ∈ L, ∀ Q ∈ L, ∃ x ∈ P, x ∈ Q) ∧
      (b = false → L ≠ [] → ¬ QuorumIntersection f) := by
  obtain ⟨fR, a, hnew, hR, hst⟩ := start_new env f
  obtain ⟨p, hp⟩ := exists_modeQ env f hR
  obtain ⟨pb, hpb⟩ := exists_modeB env f hR
  simp only [answerAfter, hnew] at hL ⊢
  rcases Reach.calls hR hp hpb (.inl hst : Reach env f fR p pb a) history with
    ⟨a', h1, h2⟩ | ⟨_, h1⟩
  · simp only [h1] at hL ⊢
    obtain ⟨p, his, hQ, _, h⟩ := h2.answers hwf hR hp hpb
    rw [h .minimalQuorums (by simp) (by simp) _ rfl] at hL
    injection hL with hL
    injection hL with hL
    subst hL
    have hsub : ∀ S ∈ p.Q, S ⊆ Finset.range p.K.card :=
      fun S hS => his.quorum_subset ((hQ S).1 hS).prop
    have hv : verdictOf p.Q = true ↔ p.Q.map (unSet p.K) ≠ [] ∧
        ∀ P ∈ p.Q.map (unSet p.K), ∀ Q ∈ p.Q.map (unSet p.K), ∃ x ∈ P, x ∈ Q := by
      rw [verdictOf_iff hQ, quorumIntersection_iff_min]
      constructor
      · rintro ⟨⟨S, hS⟩, hi⟩
        refine ⟨fun h0 => ?_, ?_⟩
        · rw [List.map_eq_nil_iff] at h0
          have := (hQ S).2 hS
          rw [h0] at this
          cases this
        · intro P hP Q hQ'
          obtain ⟨P, hP₁, rfl⟩ := List.mem_map.1 hP
          obtain ⟨Q, hQ₁, rfl⟩ := List.mem_map.1 hQ'
          obtain ⟨x, hx, hx'⟩ := hi P Q ((hQ _).1 hP₁) ((hQ _).1 hQ₁)
          exact ⟨un p.K x, Finset.mem_image_of_mem _ hx, Finset.mem_image_of_mem _ hx'⟩
      · rintro ⟨h0, hi⟩
        obtain ⟨S, hS⟩ := List.exists_mem_of_ne_nil _ (fun h => h0 (by rw [h]; rfl) : p.Q ≠ [])
        refine ⟨⟨S, (hQ S).1 hS⟩, fun P P' hP hP' => ?_⟩
        have hP := (hQ P).2 hP
        have hP' := (hQ P').2 hP'
        obtain ⟨x, hx, hx'⟩ := hi _ (List.mem_map_of_mem hP) _ (List.mem_map_of_mem hP')
        obtain ⟨i, hi, rfl⟩ := Finset.mem_image.1 hx
        exact ⟨i, hi, (un_mem_unSet (hsub P' hP') (Finset.mem_range.1 (hsub P hP hi))).1 hx'⟩
    refine ⟨_, h .hasQuorumIntersection (by simp) (by simp) _ rfl, hv, fun hf h0 hqi => ?_⟩
    rw [Bool.eq_false_iff, Ne, hv] at hf
    refine hf ⟨h0, fun P hP Q hQ' => ?_⟩
    obtain ⟨P, hP₁, rfl⟩ := List.mem_map.1 hP
    obtain ⟨Q, hQ₁, rfl⟩ := List.mem_map.1 hQ'
    exact hqi.2 _ _ ((his.isQuorum (hsub P hP₁)).1 ((hQ _).1 hP₁).prop)
      ((his.isQuorum (hsub Q hQ₁)).1 ((hQ _).1 hQ₁).prop)
  · rw [h1] at hL
    cases hL

/-- C21, for all FBASs and all histories: exactly the empty set is reported iff the same object
reports that there is no quorum intersection; otherwise no reported set is empty. -/
theorem C21_consistent (env : Env) (f : Fbas) (hwf : WF f) (history : List Call) (L : List NodeSet)
    (hL : answerAfter env f history .minimalSplittingSets = .ok (.sets L)) :
    ∃ b, answerAfter env f history .hasQuorumIntersection = .ok (.bool b) ∧
      (L = [∅] ↔ b = false) ∧ (b = true → ∅ ∉ L) := by
  obtain ⟨fR, a, hnew, hR, hst⟩ := start_new env f
  obtain ⟨p, hp⟩ := exists_modeQ env f hR
  obtain ⟨pb, hpb⟩ := exists_modeB env f hR
  simp only [answerAfter, hnew] at hL ⊢
  rcases Reach.calls hR hp hpb (.inl hst : Reach env f fR p pb a) history with
    ⟨a', h1, h2⟩ | ⟨_, h1⟩
  · simp only [h1] at hL ⊢
    obtain ⟨p, his, hQ, hS, h⟩ := h2.answers hwf hR hp hpb
    rw [h .minimalSplittingSets (by simp) (by simp) _ rfl] at hL
    injection hL with hL
    injection hL with hL
    subst hL
    refine ⟨_, h .hasQuorumIntersection (by simp) (by simp) _ rfl, ?_⟩
    cases hv : verdictOf p.Q with
    | false =>
      rw [hv, if_neg (by simp)] at hS
      rw [← Except.ok.inj hS]
      simp [unSet]
    | true =>
      rw [hv, if_pos rfl] at hS
      have hne : ∀ S ∈ p.S.map (unSet p.K), S.Nonempty := by
        intro S hS'
        obtain ⟨T, hT, rfl⟩ := List.mem_map.1 hS'
        exact Finset.image_nonempty.2 (findMinimalSplittingSets_nonempty env his.wf hS hT)
      have h0 : ∅ ∉ p.S.map (unSet p.K) := fun h0 => by simpa using hne _ h0
      refine ⟨⟨fun h => ?_, fun h => (by cases h)⟩, fun _ => h0⟩
      rw [h] at h0
      simp at h0
  · rw [h1] at hL
    cases hL

theorem splitting_sound {env : Env} {f fR : Fbas} {p : Params} (hwf : WF f) (hw : WellShaped env f)
    (hqi : QuorumIntersection f) (hR : IsShrunken f (f.relevantNodes env) fR)
    (hp : ModeQ env f fR p) : ∀ S ∈ p.S.map (unSet p.K),
      ∃ P Q, IsMinQuorum f P ∧ IsMinQuorum f Q ∧ P ≠ Q ∧ P ∩ Q = S := by
  obtain ⟨he, hn⟩ := hp.exact hwf hR
  have hsym' := hw.topTier p.K he.K p.f' _ hp.sh
  have hdR : ∀ q, SymCluster fR q → DupFree q := by
    intro q hq
    obtain ⟨g, h1, h2⟩ := f.shrunken_ok (f.relevantNodes env)
    obtain ⟨h3, h4⟩ := hR.qset_eq h2
    exact (hw.relevant g _ h1 q (symCluster_congr h3 h4 q hq)).1
  obtain ⟨M, hM, hM2, hM3, hM4⟩ := findMinimalQuorums_spec env hp.is.wf
  have hMQ : M = p.Q := eq_of_lenLex hM3 he.sortedQ (hM4 (fun q hq => (hsym' q hq).1)) (hn hdR)
    (fun S => by rw [hM2, he.Q])
  have hs := hp.split
  rw [if_pos ((he.verdict hp.is).2 hqi), ← hMQ] at hs
  intro S hS
  obtain ⟨T, hT, rfl⟩ := List.mem_map.1 hS
  obtain ⟨P, Q, h1, h2, h3, h4⟩ := findMinimalSplittingSets_sound env env hp.is.wf hM hsym' hs hT
  have e1 := hp.is.isMinQuorum.1 h1
  have e2 := hp.is.isMinQuorum.1 h2
  refine ⟨_, _, e1.2, e2.2, fun h => h3 (unSet_injOn e1.1 e2.1 h), ?_⟩
  rw [← h4]
  ext x
  rw [Finset.mem_inter]
  constructor
  · rintro ⟨hx, hx'⟩
    obtain ⟨i, hi, rfl⟩ := Finset.mem_image.1 hx
    exact Finset.mem_image_of_mem _ (Finset.mem_inter.2
      ⟨hi, (un_mem_unSet e2.1 (Finset.mem_range.1 (e1.1 hi))).1 hx'⟩)
  · intro hx
    obtain ⟨i, hi, rfl⟩ := Finset.mem_image.1 hx
    rw [Finset.mem_inter] at hi
    exact ⟨Finset.mem_image_of_mem _ hi.1, Finset.mem_image_of_mem _ hi.2⟩

/-- C19 for `Analysis::minimal_splitting_sets`, soundness for all histories and all well-shaped FBASs
with quorum intersection: every reported set is the intersection of two different minimal quorums of
the original FBAS.

Missing: completeness and minimality, see `C19_all_histories_partial`. -/
theorem C19_analysis_sound_partial (env : Env) (f : Fbas) (hwf : WF f) (hw : WellShaped env f)
    (hqi : QuorumIntersection f) (history : List Call) :
    ∃ L, answerAfter env f history .minimalSplittingSets = .ok (.sets L) ∧
      ∀ S ∈ L, Splitting f S ∧ ∃ P Q, IsMinQuorum f P ∧ IsMinQuorum f Q ∧ P ≠ Q ∧ P ∩ Q = S := by
  obtain ⟨fR, p, hR, hp, _, h⟩ := all_shaped (history := history) (c := .minimalSplittingSets) hwf hw
    (.inr hqi.1) (by simp)
  refine ⟨_, h _ rfl, fun S hS => ?_⟩
  obtain ⟨P, Q, h1, h2, h3, h4⟩ := splitting_sound hwf hw hqi hR hp S hS
  exact ⟨⟨P, Q, h1, h2, h3, h4.le⟩, P, Q, h1, h2, h3, h4⟩

/-- Two clusters: nodes 0-2 need two of: node 0, "1 of node 2 and an unsatisfiable set", "node 1 and
an unsatisfiable set"; node 3 only needs itself. -/
def fbasWrongVerdict : Fbas := Ref.mkFbas (List.replicate 3
  ⟨2, [0], [⟨1, [2], [⟨1, [], []⟩]⟩, ⟨2, [1], [⟨1, [], []⟩]⟩]⟩ ++ [⟨1, [3], []⟩])

/-- C12 and C14 are false after `minimal_blocking_sets` was called first, also in the dangerous
direction: the FBAS has the disjoint quorums {0, 2} and {3} and lists no node twice, but both checks
report that all quorums intersect. -/
theorem C12_counterexample :
    WF fbasWrongVerdict ∧ IsQuorum fbasWrongVerdict {0, 2} ∧ IsQuorum fbasWrongVerdict {3} ∧
    ¬ QuorumIntersection fbasWrongVerdict ∧
    (∀ x q, HasQSet fbasWrongVerdict x q → DupFree q) ∧
    answerAfter (Ref.refEnv 4) fbasWrongVerdict [] .minimalBlockingSets = .ok (.sets [{0, 1, 3}]) ∧
    answerAfter (Ref.refEnv 4) fbasWrongVerdict [] .hasQuorumIntersection = .ok (.bool false) ∧
    answerAfter (Ref.refEnv 4) fbasWrongVerdict [.minimalBlockingSets] .hasQuorumIntersection =
      .ok (.bool true) ∧
    answerAfter (Ref.refEnv 4) fbasWrongVerdict [.minimalBlockingSets] .alternativeCheck =
      .ok (.verdict true none) := by
  refine ⟨Ref.wf_of (by decide +kernel), by decide +kernel, by decide +kernel, by decide +kernel, ?_,
    Ref.ok_of (by decide +kernel), Ref.ok_of (by decide +kernel), Ref.ok_of (by decide +kernel),
    Ref.ok_of (by decide +kernel)⟩
  rintro x q ⟨n, hn, rfl⟩
  have : ∀ n ∈ fbasWrongVerdict.nodes, n.quorumSet.containsDuplicates = false := by decide +kernel
  exact Ref.dupFree_of (this n (List.mem_of_getElem? hn))

/-- C21 is false after `minimal_blocking_sets` was called first: there is no quorum intersection, but
the result is empty. -/
theorem C21_counterexample :
    WF fbasWrongVerdict ∧ ¬ QuorumIntersection fbasWrongVerdict ∧
    answerAfter (Ref.refEnv 4) fbasWrongVerdict [.minimalBlockingSets] .minimalSplittingSets =
      .ok (.sets []) :=
  ⟨Ref.wf_of (by decide +kernel), by decide +kernel, Ref.ok_of (by decide +kernel)⟩

/-- Concrete case of `C19_analysis_sound_partial`. -/
example : ∃ L, answerAfter (Ref.refEnv 5) fbasFront [.minimalBlockingSets] .minimalSplittingSets =
      .ok (.sets L) ∧ ∀ S ∈ L, Splitting fbasFront S ∧
        ∃ P Q, IsMinQuorum fbasFront P ∧ IsMinQuorum fbasFront Q ∧ P ≠ Q ∧ P ∩ Q = S :=
  C19_analysis_sound_partial _ _ fbasFront_wf (fbasFront_shaped _) (by decide +kernel) _

/-- Concrete cases of `C12_sound`, `C14_agree`, `C14_sound` and `C27_sound`. -/
example : answerAfter (Ref.refEnv 4) fbasWrongVerdict [.minimalBlockingSets] .minimalQuorums =
      .ok (.sets [{3}]) ∧
    answerAfter (Ref.refEnv 4) fbasWrongVerdict [] .minimalQuorums = .ok (.sets [{3}, {0, 2}]) ∧
    answerAfter (Ref.refEnv 4) fbasWrongVerdict [] .alternativeCheck =
      .ok (.verdict false (some [{0, 1, 2}, {3}])) :=
  ⟨Ref.ok_of (by decide +kernel), Ref.ok_of (by decide +kernel), Ref.ok_of (by decide +kernel)⟩

#print axioms C19_analysis_sound_partial
#print axioms C21_consistent
#print axioms C21_counterexample
#print axioms C27_sound
#print axioms C29_sound
#print axioms C29_exact_iff_partial
#print axioms C12_sound
#print axioms C12_counterexample
#print axioms C14_agree
#print axioms C14_sound

end FA.Props
