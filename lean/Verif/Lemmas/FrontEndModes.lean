import Verif.Lemmas.FrontEndCalls
import Verif.Props.Splitting

/-!
# What an `Analysis` object computes, in terms of the original FBAS
-/

namespace FA
open Spec Analysis QuorumSet

/-! ### The reporting order and ID shrinking -/

theorem lenLexLe_iff {S T : NodeSet} : lenLexLe S T ↔ S = T ∨ Before S T := by
  rw [← lenLexLt_iff]
  by_cases he : S = T
  · subst he
    simp only [true_or, iff_true]
    exact .inr ⟨rfl, le_refl _⟩
  · simp only [he, false_or, lenLexLt]
    exact ⟨fun h => ⟨h, he⟩, fun h => h.1⟩

theorem lenLexLe_total (S T : NodeSet) : lenLexLe S T ∨ lenLexLe T S := by
  rcases lt_trichotomy S.card T.card with h | h | h
  · exact .inl (.inl h)
  · exact (le_total (elems S) (elems T)).imp (fun h' => .inr ⟨h, h'⟩) (fun h' => .inr ⟨h.symm, h'⟩)
  · exact .inr (.inl h)

theorem lenLexLe_unSet {K S T : NodeSet} (hS : S ⊆ Finset.range K.card)
    (hT : T ⊆ Finset.range K.card) : lenLexLe (unSet K S) (unSet K T) ↔ lenLexLe S T := by
  have hmono : ∀ {S T : NodeSet}, S ⊆ Finset.range K.card → T ⊆ Finset.range K.card →
      lenLexLe S T → lenLexLe (unSet K S) (unSet K T) := by
    intro S T hS hT h
    rw [lenLexLe_iff] at h ⊢
    exact h.imp (fun h => by rw [h]) (before_unSet hS hT)
  refine ⟨fun h => ?_, hmono hS hT⟩
  rcases lenLexLe_total S T with h' | h'
  · exact h'
  · have he := antisymm_of lenLexLe h (hmono hT hS h')
    rw [unSet_injOn hS hT he, lenLexLe_iff]
    exact .inl rfl

theorem sorted_unSet {K : NodeSet} {l : List NodeSet} (hl : ∀ S ∈ l, S ⊆ Finset.range K.card) :
    (l.map (unSet K)).Pairwise lenLexLe ↔ l.Pairwise lenLexLe := by
  rw [List.pairwise_map]
  exact ⟨fun h => h.imp_of_mem (fun hS hT => (lenLexLe_unSet (hl _ hS) (hl _ hT)).1),
    fun h => h.imp_of_mem (fun hS hT => (lenLexLe_unSet (hl _ hS) (hl _ hT)).2)⟩

theorem nodup_unSet {K : NodeSet} {l : List NodeSet} (hl : ∀ S ∈ l, S ⊆ Finset.range K.card) :
    (l.map (unSet K)).Nodup ↔ l.Nodup :=
  ⟨List.Nodup.of_map _, fun h => h.map_on (fun _ hS _ hT he => unSet_injOn (hl _ hS) (hl _ hT) he)⟩

/-- Reshrinking followed by unshrinking. -/
theorem map_reshrink {K R : NodeSet} {l : List NodeSet} (hK : K = unSet R (involvedNodes l)) :
    (l.map (fun S => shrSet K (unSet R S))).map (unSet K) = l.map (unSet R) := by
  rw [List.map_map]
  refine List.map_congr_left (fun S hS => ?_)
  rw [Function.comp_apply, unSet_shrSet_of_subset]
  rw [hK]
  exact Finset.image_subset_image (fun x hx => mem_involvedNodes.2 ⟨S, hS, hx⟩)

/-! ### Splitting sets are not empty -/

theorem combineGroups_nonempty {k : ℕ} {groups : List (List NodeSet)} {T : NodeSet}
    (h : ∀ g ∈ groups, ∀ s ∈ g, s.Nonempty) (hT : T ∈ combineGroups k groups) : T.Nonempty := by
  obtain ⟨hk, gs, c, h1, h2, hc, rfl⟩ := mem_combineGroups.1 hT
  match gs, c, hc, h1 with
  | [], [], _, _ => simp at h2; omega
  | g :: gs, s :: c, .cons hs _, h1 =>
    obtain ⟨x, hx⟩ := h g (h1.subset List.mem_cons_self) s hs
    exact ⟨x, mem_unionAll.2 ⟨s, List.mem_cons_self, hx⟩⟩

theorem toSplittingSets_nonempty {q : QuorumSet} {T : NodeSet} (hT : T ∈ q.toSplittingSets) :
    T.Nonempty := by
  induction q using QuorumSet.induct generalizing T with
  | h t vs qs ih =>
    rw [toSplittingSets_eq] at hT
    refine combineGroups_nonempty ?_ (dropIfOneQuorum_sub hT)
    intro g hg s hs
    rcases List.mem_append.1 hg with h | h
    · obtain ⟨v, hv, rfl⟩ := List.mem_map.1 h
      rw [List.mem_singleton.1 hs]; exact Finset.singleton_nonempty v
    · obtain ⟨q', hq', rfl⟩ := List.mem_map.1 h
      exact ih q' hq' hs

theorem msStep_nonempty (f : Fbas) (fuel : ℕ) (parts : List NodeSet) (ch : Bool)
    (st : MsState) (hf : ∀ S ∈ st.found, S.Nonempty) :
    ∀ S ∈ (msStep f fuel parts ch st).found, S.Nonempty := by
  induction fuel generalizing parts ch st with
  | zero => exact hf
  | succ fuel ih =>
    rw [msStep]
    split
    · exact hf
    · split
      next h =>
        intro S hS
        rcases List.mem_append.1 hS with h' | h'
        · exact hf S h'
        · rw [List.mem_singleton.1 h']
          simp only [isQuorumIntersection, Bool.and_eq_true, Bool.not_eq_true',
            decide_eq_false_iff_not] at h
          exact Finset.nonempty_iff_ne_empty.2 h.2.1.1
      · split
        · exact hf
        · dsimp only
          split
          · exact ih _ _ _ (ih _ _ _ hf)
          · exact ih _ _ _ hf

theorem clusterSplitting_nonempty (env : Env) {f : Fbas} {Ks : List NodeSet} (hKs : IsClusters f Ks)
    (M : List NodeSet) {K : NodeSet} (hK : K ∈ Ks) {S : NodeSet}
    (hS : S ∈ clusterSplitting env f M K) : S.Nonempty := by
  unfold clusterSplitting at hS
  rcases hKs.findSymmetric hK with ⟨q, h1, _, h2, h3⟩ | ⟨h1, _⟩
  · rw [h1] at hS
    have hS' : S ∈ q.toMinimalSplittingSets := hS
    unfold toMinimalSplittingSets at hS'
    dsimp only at hS'
    split at hS'
    · exact toSplittingSets_nonempty (((removeNonMinimal_spec _).1 _).1 hS').prop
    · exact toSplittingSets_nonempty hS'
  · rw [h1] at hS
    exact msStep_nonempty f _ M true _ (by simp) S (((removeNonMinimal_spec _).1 _).1 hS).prop

theorem findMinimalSplittingSets_nonempty (env : Env) {f : Fbas} (hwf : WF f) {M L : List NodeSet}
    (hL : findMinimalSplittingSets env f M = .ok L) {S : NodeSet} (hS : S ∈ L) : S.Nonempty := by
  have hKs := consensusClusters_spec env hwf
  rw [findMinimalSplittingSets_eq env hwf] at hL
  rw [← Except.ok.inj hL, sort_mem, List.mem_flatMap] at hS
  obtain ⟨K, hK, hS⟩ := hS
  exact clusterSplitting_nonempty env hKs M hK hS

/-! ### Verdicts -/

theorem verdictOf_iff {f : Fbas} {Q : List NodeSet} (hQ : ∀ S, S ∈ Q ↔ IsMinQuorum f S) :
    verdictOf Q = true ↔ QuorumIntersection f := by
  rw [verdictOf, Bool.and_eq_true, allIntersect_iff, quorumIntersection_iff_min,
    Bool.not_eq_true', List.isEmpty_eq_false_iff_exists_mem]
  constructor
  · rintro ⟨⟨S, hS⟩, hp⟩
    refine ⟨⟨S, (hQ S).1 hS⟩, fun P P' hP hP' => ?_⟩
    have : Std.Symm (fun a b : NodeSet => ∃ x, x ∈ a ∧ x ∈ b) :=
      ⟨fun _ _ ⟨x, h1, h2⟩ => ⟨x, h2, h1⟩⟩
    refine List.Pairwise.forall_of_forall ?_ hp ((hQ P).2 hP) ((hQ P').2 hP')
    intro S hS
    obtain ⟨x, hx⟩ := ((hQ S).1 hS).prop.1
    exact ⟨x, hx, hx⟩
  · rintro ⟨⟨S, hS⟩, hp⟩
    exact ⟨⟨S, (hQ S).2 hS⟩, List.Pairwise.imp_of_mem
      (fun ha hb _ => hp _ _ ((hQ _).1 ha) ((hQ _).1 hb)) (List.pairwise_of_forall (R := fun _ _ => True) (by simp))⟩

/-! ### Modes -/

/-- Symmetric clusters of the FBAS restricted to `K` list no node twice and have sane thresholds. -/
def ShapedOn (f : Fbas) (K : NodeSet) : Prop :=
  ∀ f', IsShrunken f K f' → ∀ q, SymCluster f' q → DupFree q ∧ Sane q

section
variable {env : Env} {f fR : Fbas} {p : Params}

theorem covers_relevant (hwf : WF f) : Covers f (f.relevantNodes env) :=
  fun Q hQ => Props.C08_contains_minQuorums env f hwf Q hQ

theorem Covers.of_topTier {K : NodeSet} (h : ∀ x, x ∈ K ↔ InTopTier f x) : Covers f K :=
  fun Q hQ x hx => (h x).2 ⟨Q, hQ, hx⟩

theorem relevantNodes_env (env env' : Env) (hwf : WF f) :
    f.relevantNodes env = f.relevantNodes env' := by
  ext x
  rw [Props.C08_relevant_iff env f hwf, Props.C08_relevant_iff env' f hwf]

/-- What is computed for an ID space `p.K` that is the top tier. -/
structure Exact (f : Fbas) (p : Params) : Prop where
  K : ∀ x, x ∈ p.K ↔ InTopTier f x
  Q : ∀ S, S ∈ p.Q ↔ IsMinQuorum p.f' S
  sortedQ : p.Q.Pairwise lenLexLe

theorem ModeQ.exact (hwf : WF f) (hR : IsShrunken f (f.relevantNodes env) fR)
    (hp : ModeQ env f fR p) : Exact f p ∧
      ((∀ q, SymCluster fR q → DupFree q) → p.Q.Nodup) := by
  have hc := covers_relevant (env := env) hwf
  obtain ⟨QR, hQ, hK, hpQ⟩ := hp.QR
  obtain ⟨L, h1, h2, h3, h4⟩ := findMinimalQuorums_spec env hR.wf
  rw [hQ] at h1
  obtain rfl := Except.ok.inj h1
  have hsubR : ∀ S ∈ QR, S ⊆ Finset.range (f.relevantNodes env).card :=
    fun S hS => hR.quorum_subset ((h2 S).1 hS).prop
  have hexact : ∀ S, S ∈ QR.map (unSet (f.relevantNodes env)) ↔ IsMinQuorum f S := by
    intro S
    rw [List.mem_map]
    constructor
    · rintro ⟨T, hT, rfl⟩
      exact (hR.isMinQuorum.1 ((h2 T).1 hT)).2
    · intro hS
      refine ⟨shrSet _ S, (h2 _).2 (hR.isMinQuorum_shrSet hc hS), unSet_shrSet_of_subset (hc S hS)⟩
  have hmap : p.Q.map (unSet p.K) = QR.map (unSet (f.relevantNodes env)) := by
    rw [hpQ, map_reshrink hK]
  have hKtt : ∀ x, x ∈ p.K ↔ InTopTier f x := by
    intro x
    rw [hK, unSet, Finset.mem_image]
    constructor
    · rintro ⟨i, hi, rfl⟩
      obtain ⟨S, hS, hiS⟩ := mem_involvedNodes.1 hi
      exact ⟨_, (hexact _).1 (List.mem_map_of_mem hS), Finset.mem_image_of_mem _ hiS⟩
    · rintro ⟨S, hS, hx⟩
      obtain ⟨T, hT, rfl⟩ := List.mem_map.1 ((hexact S).2 hS)
      obtain ⟨i, hi, rfl⟩ := Finset.mem_image.1 hx
      exact ⟨i, mem_involvedNodes.2 ⟨T, hT, hi⟩, rfl⟩
  have hcK := Covers.of_topTier hKtt
  refine ⟨⟨hKtt, fun S => ?_, ?_⟩, fun hd => ?_⟩
  · constructor
    · intro hS
      rw [hp.is.isMinQuorum]
      refine ⟨hp.good.Q S hS, (hexact _).1 ?_⟩
      rw [← hmap]; exact List.mem_map_of_mem hS
    · intro hS
      have h5 := (hexact _).2 (hp.is.isMinQuorum.1 hS).2
      rw [← hmap, List.mem_map] at h5
      obtain ⟨T, hT, he⟩ := h5
      rwa [← unSet_injOn (hp.good.Q T hT) (hp.is.quorum_subset hS.prop) he]
  · rw [← sorted_unSet hp.good.Q, hmap, sorted_unSet hsubR]; exact h3
  · rw [← nodup_unSet hp.good.Q, hmap, nodup_unSet hsubR]; exact h4 hd

/-- In the blocking mode. -/
theorem ModeB.exact (hwf : WF f) (hR : IsShrunken f (f.relevantNodes env) fR)
    (hp : ModeB env f fR p) (hs : ShapedOn f (f.relevantNodes env)) : Exact f p ∧
      ((∃ Q, IsQuorum f Q) → ∀ S, S ∈ p.B ↔ IsMinBlocking p.f' S) ∧
      ((¬ ∃ Q, IsQuorum f Q) → p.B = []) ∧ p.B.Pairwise lenLexLe ∧ p.B.Nodup ∧
      ((∀ q, SymCluster p.f' q → DupFree q) → p.Q.Nodup) := by
  have hc := covers_relevant (env := env) hwf
  obtain ⟨BR, hB, hK, hpB⟩ := hp.BR
  obtain ⟨L, h1, h2, h3, h4⟩ := findMinimalQuorums_spec env hp.is.wf
  rw [hp.Q] at h1
  obtain rfl := Except.ok.inj h1
  by_cases hq : ∃ Q, IsQuorum f Q
  · obtain ⟨L, h5, h6, h7, h8⟩ := findMinimalBlockingSets_spec env hR.wf
      ((hR.exists_quorum hc).2 hq) (hs fR hR)
    rw [hB] at h5
    obtain rfl := Except.ok.inj h5
    have hsubR : ∀ S ∈ BR, S ⊆ Finset.range (f.relevantNodes env).card :=
      fun S hS => ((hR.isMinBlocking hc S).1 ((h6 S).1 hS)).1
    have hexact : ∀ S, S ∈ BR.map (unSet (f.relevantNodes env)) ↔ IsMinBlocking f S := by
      intro S
      rw [List.mem_map]
      constructor
      · rintro ⟨T, hT, rfl⟩
        exact ((hR.isMinBlocking hc T).1 ((h6 T).1 hT)).2
      · intro hS
        have hsub : S ⊆ f.relevantNodes env := by
          intro x hx
          obtain ⟨Q, hQ, hxQ⟩ := (Props.C18_duality f x).2 ⟨S, hS, hx⟩
          exact hc Q hQ hxQ
        refine ⟨shrSet _ S, (h6 _).2 ((hR.isMinBlocking hc _).2 ⟨shrSet_subset _ _, ?_⟩),
          unSet_shrSet_of_subset hsub⟩
        rwa [unSet_shrSet_of_subset hsub]
    have hmap : p.B.map (unSet p.K) = BR.map (unSet (f.relevantNodes env)) := by
      rw [hpB, map_reshrink hK]
    have hKtt : ∀ x, x ∈ p.K ↔ InTopTier f x := by
      intro x
      rw [InTopTier, Props.C18_duality, hK, unSet, Finset.mem_image]
      constructor
      · rintro ⟨i, hi, rfl⟩
        obtain ⟨S, hS, hiS⟩ := mem_involvedNodes.1 hi
        exact ⟨_, (hexact _).1 (List.mem_map_of_mem hS), Finset.mem_image_of_mem _ hiS⟩
      · rintro ⟨S, hS, hx⟩
        obtain ⟨T, hT, rfl⟩ := List.mem_map.1 ((hexact S).2 hS)
        obtain ⟨i, hi, rfl⟩ := Finset.mem_image.1 hx
        exact ⟨i, mem_involvedNodes.2 ⟨T, hT, hi⟩, rfl⟩
    have hcK := Covers.of_topTier hKtt
    refine ⟨⟨hKtt, h2, h3⟩, fun _ S => ?_, fun h => absurd hq h, ?_, ?_, h4⟩
    · constructor
      · intro hS
        rw [hp.is.isMinBlocking hcK]
        refine ⟨hp.good.B S hS, (hexact _).1 ?_⟩
        rw [← hmap]; exact List.mem_map_of_mem hS
      · intro hS
        have h5 := (hexact _).2 ((hp.is.isMinBlocking hcK S).1 hS).2
        rw [← hmap, List.mem_map] at h5
        obtain ⟨T, hT, he⟩ := h5
        rwa [← unSet_injOn (hp.good.B T hT) ((hp.is.isMinBlocking hcK S).1 hS).1 he]
    · rw [← sorted_unSet hp.good.B, hmap, sorted_unSet hsubR]; exact h8
    · rw [← nodup_unSet hp.good.B, hmap, nodup_unSet hsubR]; exact h7
  · rw [findMinimalBlockingSets_none env hR.wf (fun h => hq ((hR.exists_quorum hc).1 h))] at hB
    obtain rfl := Except.ok.inj hB
    have hB0 : p.B = [] := by rw [hpB]; rfl
    refine ⟨⟨fun x => ?_, h2, h3⟩, fun h => absurd h hq, fun _ => hB0, by simp [hB0], by simp [hB0], h4⟩
    rw [hK]
    constructor
    · intro hx; simp [unSet, involvedNodes, unionAll] at hx
    · rintro ⟨Q, hQ, _⟩; exact absurd ⟨Q, hQ.prop⟩ hq

/-- Blocking sets in the quorum mode, if the FBAS restricted to the top tier is well-shaped. -/
theorem ModeQ.blocking (hwf : WF f) (hR : IsShrunken f (f.relevantNodes env) fR)
    (hp : ModeQ env f fR p) (hs : ShapedOn f p.K) :
      ((∃ Q, IsQuorum f Q) → ∀ S, S ∈ p.B ↔ IsMinBlocking p.f' S) ∧
      ((¬ ∃ Q, IsQuorum f Q) → p.B = []) ∧ p.B.Pairwise lenLexLe ∧ p.B.Nodup := by
  have hcK := Covers.of_topTier (hp.exact hwf hR).1.K
  by_cases hq : ∃ Q, IsQuorum f Q
  · obtain ⟨L, h5, h6, h7, h8⟩ := findMinimalBlockingSets_spec env hp.is.wf
      ((hp.is.exists_quorum hcK).2 hq) (hs p.f' hp.is)
    rw [hp.B] at h5
    obtain rfl := Except.ok.inj h5
    exact ⟨fun _ => h6, fun h => absurd hq h, h8, h7⟩
  · have hB := hp.B
    rw [findMinimalBlockingSets_none env hp.is.wf (fun h => hq ((hp.is.exists_quorum hcK).1 h))] at hB
    have hB0 := (Except.ok.inj hB).symm
    exact ⟨fun h => absurd h hq, fun _ => hB0, by simp [hB0], by simp [hB0]⟩

/-- Both modes compute the same if the FBAS is well-shaped. -/
theorem modes_agree {env env' : Env} {fR' : Fbas} {pq pb : Params} (hwf : WF f)
    (hR : IsShrunken f (f.relevantNodes env) fR) (hR' : IsShrunken f (f.relevantNodes env') fR')
    (hs : ShapedOn f (f.relevantNodes env)) (hq : ModeQ env f fR pq) (hb : ModeB env' f fR' pb)
    (hsK : ShapedOn f pq.K) :
    pq = pb := by
  rw [relevantNodes_env env env' hwf] at hs
  obtain ⟨he, hn⟩ := hq.exact hwf hR
  obtain ⟨he', h1, h2, h3, h4, h5⟩ := hb.exact hwf hR' hs
  have hK : pq.K = pb.K := by ext x; rw [he.K, he'.K]
  have hf : pq.f' = pb.f' := by
    have := hq.sh
    rw [hK, hb.sh] at this
    exact (congrArg Prod.fst (Except.ok.inj this)).symm
  have hs' : ShapedOn f (f.relevantNodes env) := by rwa [relevantNodes_env env env' hwf]
  have hQ : pq.Q = pb.Q := by
    refine eq_of_lenLex he.sortedQ he'.sortedQ (hn (fun q hq => (hs' fR hR q hq).1))
      (h5 (fun q hq => (hsK pb.f' (hK ▸ hb.is) q hq).1)) (fun S => ?_)
    rw [he.Q, he'.Q, hf]
  have hB : pq.B = pb.B := by
    obtain ⟨g1, g2, g3, g4⟩ := hq.blocking hwf hR hsK
    by_cases hqq : ∃ Q, IsQuorum f Q
    · exact eq_of_lenLex g3 h3 g4 h4 (fun S => by rw [g1 hqq, h1 hqq, hf])
    · rw [g2 hqq, h2 hqq]
  have hS : pq.S = pb.S := by
    have h6 := hq.split
    have h7 := hb.split
    rw [hQ, hf] at h6
    split at h6
    next hv =>
      rw [if_pos hv, findMinimalSplittingSets_env env' env env' hb.is.wf hb.Q, h6] at h7
      exact Except.ok.inj h7
    next hv =>
      rw [if_neg hv, h6] at h7
      exact Except.ok.inj h7
  cases pq; cases pb
  simp_all

/-- Results in terms of the original FBAS. -/
theorem Exact.minQuorums (he : Exact f p) (his : IsShrunken f p.K p.f') (S : NodeSet) :
    S ∈ p.Q.map (unSet p.K) ↔ IsMinQuorum f S := by
  have hc := Covers.of_topTier he.K
  rw [List.mem_map]
  constructor
  · rintro ⟨T, hT, rfl⟩; exact (his.isMinQuorum.1 ((he.Q T).1 hT)).2
  · intro hS
    exact ⟨shrSet p.K S, (he.Q _).2 (his.isMinQuorum_shrSet hc hS),
      unSet_shrSet_of_subset (hc S hS)⟩

theorem Exact.verdict (he : Exact f p) (his : IsShrunken f p.K p.f') :
    verdictOf p.Q = true ↔ QuorumIntersection f := by
  rw [verdictOf_iff he.Q, his.quorumIntersection (Covers.of_topTier he.K)]

theorem Exact.topTier (he : Exact f p) (his : IsShrunken f p.K p.f') (x : NodeId) :
    x ∈ unSet p.K (involvedNodes p.Q) ↔ InTopTier f x := by
  rw [unSet, Finset.mem_image]
  constructor
  · rintro ⟨i, hi, rfl⟩
    obtain ⟨S, hS, hiS⟩ := mem_involvedNodes.1 hi
    exact ⟨_, (he.minQuorums his _).1 (List.mem_map_of_mem hS), Finset.mem_image_of_mem _ hiS⟩
  · rintro ⟨S, hS, hx⟩
    obtain ⟨T, hT, rfl⟩ := List.mem_map.1 ((he.minQuorums his S).2 hS)
    obtain ⟨i, hi, rfl⟩ := Finset.mem_image.1 hx
    exact ⟨i, mem_involvedNodes.2 ⟨T, hT, hi⟩, rfl⟩

theorem minBlocking_subset_topTier {S : NodeSet} (hS : IsMinBlocking f S) {x : NodeId}
    (hx : x ∈ S) : InTopTier f x := (Props.C18_duality f x).2 ⟨S, hS, hx⟩

theorem Exact.minBlocking (he : Exact f p) (his : IsShrunken f p.K p.f')
    (hB : ∀ S, S ∈ p.B ↔ IsMinBlocking p.f' S) (S : NodeSet) :
    S ∈ p.B.map (unSet p.K) ↔ IsMinBlocking f S := by
  have hc := Covers.of_topTier he.K
  rw [List.mem_map]
  constructor
  · rintro ⟨T, hT, rfl⟩; exact ((his.isMinBlocking hc T).1 ((hB T).1 hT)).2
  · intro hS
    have hsub : S ⊆ p.K := fun x hx => (he.K x).2 (minBlocking_subset_topTier hS hx)
    refine ⟨shrSet p.K S, (hB _).2 ((his.isMinBlocking hc _).2 ⟨shrSet_subset _ _, ?_⟩),
      unSet_shrSet_of_subset hsub⟩
    rwa [unSet_shrSet_of_subset hsub]

theorem minSplitting_subset_topTier {S : NodeSet} (hS : IsMinSplitting f S) {x : NodeId}
    (hx : x ∈ S) : InTopTier f x := by
  obtain ⟨P, Q, hP, hQ, hne, hsub⟩ := hS.prop
  have := hS.le_of_le (y := P ∩ Q) ⟨P, Q, hP, hQ, hne, subset_rfl⟩ hsub
  exact ⟨P, hP, (Finset.mem_inter.1 (this hx)).1⟩

theorem Exact.minSplitting (he : Exact f p) (his : IsShrunken f p.K p.f')
    (hB : ∀ S, S ∈ p.S ↔ IsMinSplitting p.f' S) (S : NodeSet) :
    S ∈ p.S.map (unSet p.K) ↔ IsMinSplitting f S := by
  have hc := Covers.of_topTier he.K
  rw [List.mem_map]
  constructor
  · rintro ⟨T, hT, rfl⟩; exact ((his.isMinSplitting hc T).1 ((hB T).1 hT)).2
  · intro hS
    have hsub : S ⊆ p.K := fun x hx => (he.K x).2 (minSplitting_subset_topTier hS hx)
    refine ⟨shrSet p.K S, (hB _).2 ((his.isMinSplitting hc _).2 ⟨shrSet_subset _ _, ?_⟩),
      unSet_shrSet_of_subset hsub⟩
    rwa [unSet_shrSet_of_subset hsub]

/-- Splitting sets reported: `[∅]` iff there is no quorum intersection. -/
theorem Exact.split_empty (he : Exact f p) (his : IsShrunken f p.K p.f')
    (hsplit : (if verdictOf p.Q = true then findMinimalSplittingSets env p.f' p.Q else .ok [∅]) =
      .ok p.S) : (p.S.map (unSet p.K) = [∅] ↔ ¬ QuorumIntersection f) ∧
      (QuorumIntersection f → ∀ S ∈ p.S.map (unSet p.K), S.Nonempty) := by
  rw [← he.verdict his]
  split at hsplit
  next hv =>
    have hne : ∀ S ∈ p.S.map (unSet p.K), S.Nonempty := by
      intro S hS
      obtain ⟨T, hT, rfl⟩ := List.mem_map.1 hS
      exact Finset.image_nonempty.2 (findMinimalSplittingSets_nonempty env his.wf hsplit hT)
    refine ⟨⟨fun h => ?_, fun h => absurd hv h⟩, fun _ => hne⟩
    have := hne ∅ (by rw [h]; simp)
    simp at this
  next hv =>
    rw [← Except.ok.inj hsplit]
    exact ⟨⟨fun _ => hv, fun _ => by simp [unSet]⟩, fun h => absurd h hv⟩

/-! ### Answers -/

/-- What is known about the answers, given that blocking sets are not computed first. -/
theorem answer_quorums_first (env : Env) (f : Fbas) :
    ∃ fR p, IsShrunken f (f.relevantNodes env) fR ∧ ModeQ env f fR p ∧ ∀ history c,
      ¬ BlockingFirst (history ++ [c]) → answerAfter env f history c ≠ .error .assertion →
      ∀ ans, answerOf p c = some ans → answerAfter env f history c = .ok ans := by
  obtain ⟨fR, a, hnew, hR, hst⟩ := start_new env f
  obtain ⟨p, hp⟩ := exists_modeQ env f hR
  obtain ⟨pb, hpb⟩ := exists_modeB env f hR
  refine ⟨fR, p, hR, hp, fun history c hb ha ans hans => ?_⟩
  rw [answerAfter, hnew] at ha ⊢
  dsimp only at ha ⊢
  rcases Reach.calls hR hp hpb (.inl hst : Reach env f fR p pb a) history with
    ⟨a', h1, _⟩ | ⟨_, h1⟩
  · have hb' : ¬ BlockingFirst history := by
      rintro ⟨pre, post, h, hpre⟩
      exact hb ⟨pre, post ++ [c], by simp [h], hpre⟩
    obtain ⟨h2, h3⟩ := reachQ_calls hR hp history (.inl hst) (fun _ => hb') h1
    rw [h1]
    dsimp only
    rcases h2 with h2 | ⟨h2, hk⟩
    · have hc : c ≠ .minimalBlockingSets := by
        rintro rfl
        exact hb ⟨history, [], by simp, (h3 h2).2⟩
      obtain ⟨a'', _, _, h4⟩ := h2.call hR hp hans hc
      rw [h4]; rfl
    · obtain ⟨a'', _, _, h4 | ⟨_, h5, _⟩⟩ := h2.call hp.good hans
      · rw [h4]; rfl
      · exact absurd h5 hk
  · rw [h1] at ha
    exact absurd rfl ha

/-- Answers for well-shaped FBASs. -/
theorem answer_shaped (hwf : WF f) (env : Env) (hs : ShapedOn f (f.relevantNodes env))
    (hsT : ∀ T : NodeSet, (∀ x, x ∈ T ↔ InTopTier f x) → ShapedOn f T)
    (history : List Call) (c : Call)
    (ha : answerAfter env f history c ≠ .error .assertion) :
    ∃ fR p, IsShrunken f (f.relevantNodes env) fR ∧ ModeQ env f fR p ∧ ModeB env f fR p ∧
      ∀ ans, answerOf p c = some ans → answerAfter env f history c = .ok ans := by
  obtain ⟨fR, a, hnew, hR, hst⟩ := start_new env f
  obtain ⟨p, hp⟩ := exists_modeQ env f hR
  obtain ⟨pb, hpb⟩ := exists_modeB env f hR
  obtain rfl := modes_agree hwf hR hR hs hp hpb (hsT _ (hp.exact hwf hR).1.K)
  refine ⟨fR, p, hR, hp, hpb, fun ans hans => ?_⟩
  rw [answerAfter, hnew] at ha ⊢
  dsimp only at ha ⊢
  rcases Reach.calls hR hp hpb (.inl hst : Reach env f fR p p a) history with
    ⟨a', h1, h2⟩ | ⟨_, h1⟩
  · rw [h1]
    dsimp only
    have hat : At env f p a' → (a'.call env c).map Prod.fst = .ok ans := by
      intro h2
      obtain ⟨a'', _, _, h4 | ⟨hc, _, h4⟩⟩ := h2.call hp.good hans
      · rw [h4]; rfl
      · rw [h4]
        subst hc
        rw [← Option.some.inj hans]
        have he := (hp.exact hwf hR).1
        obtain ⟨g1, g2, _⟩ := hp.blocking hwf hR (hsT _ he.K)
        show Except.ok (Answer.set _) = Except.ok (Answer.set _)
        congr 2
        ext x
        rw [he.topTier hp.is]
        by_cases hq : ∃ Q, IsQuorum f Q
        · have hB := he.minBlocking hp.is (g1 hq)
          rw [InTopTier, Props.C18_duality, unSet, Finset.mem_image]
          constructor
          · rintro ⟨i, hi, rfl⟩
            obtain ⟨S, hS, hiS⟩ := mem_involvedNodes.1 hi
            exact ⟨_, (hB _).1 (List.mem_map_of_mem hS), Finset.mem_image_of_mem _ hiS⟩
          · rintro ⟨S, hS, hx⟩
            obtain ⟨T, hT, rfl⟩ := List.mem_map.1 ((hB S).2 hS)
            obtain ⟨i, hi, rfl⟩ := Finset.mem_image.1 hx
            exact ⟨i, mem_involvedNodes.2 ⟨T, hT, hi⟩, rfl⟩
        · rw [g2 hq]
          constructor
          · intro hx; simp [unSet, involvedNodes, unionAll] at hx
          · rintro ⟨Q, hQ, _⟩; exact absurd ⟨Q, hQ.prop⟩ hq
    rcases h2 with h2 | ⟨h2, _⟩ | h2
    · by_cases hc : c = .minimalBlockingSets
      · subst hc
        obtain ⟨a'', _, h4⟩ := h2.call_blocking hR hpb
        rw [h4, ← Option.some.inj hans]; rfl
      · obtain ⟨a'', _, _, h4⟩ := h2.call hR hp hans hc
        rw [h4]; rfl
    · exact hat h2
    · exact hat h2
  · rw [h1] at ha
    exact absurd rfl ha

/-- Static answers. -/
theorem answer_static (env : Env) (history : List Call) {c : Call} (hc : Static c)
    (ha : answerAfter env f history c ≠ .error .assertion) :
    answerAfter env f history c = answerAfter env f [] c ∧ ∃ ans, answerAfter env f [] c = .ok ans := by
  obtain ⟨fR, a, hnew, hR, hst⟩ := start_new env f
  obtain ⟨p, hp⟩ := exists_modeQ env f hR
  obtain ⟨pb, hpb⟩ := exists_modeB env f hR
  obtain ⟨ans, hans⟩ := call_static env f hc
  have hr : Reach env f fR p pb a := .inl hst
  have h0 : answerAfter env f [] c = .ok ans := by
    simp only [answerAfter, hnew, Analysis.calls]
    rw [hans a hr.orig]; rfl
  refine ⟨?_, ans, h0⟩
  rw [h0]
  rw [answerAfter, hnew] at ha ⊢
  dsimp only at ha ⊢
  rcases hr.calls hR hp hpb history with ⟨a', h1, h2⟩ | ⟨_, h1⟩
  · rw [h1]
    dsimp only
    rw [hans a' h2.orig]; rfl
  · rw [h1] at ha
    exact absurd rfl ha

/-- Answers of the alternative check, for any history. -/
theorem answer_alternative (env : Env) (history : List Call) :
    ∃ K f', (answerAfter env f history .alternativeCheck ≠ .error .assertion → IsShrunken f K f') ∧
    (answerAfter env f history .alternativeCheck = .error .assertion ∨
    (∃ l, answerAfter env f history .alternativeCheck = .ok (.verdict false (some l)) ∧
      2 ≤ l.length ∧ l.Pairwise Disjoint ∧ ∀ S ∈ l, IsQuorum f S) ∨
    ((∃ Q, IsQuorum f' Q) ∧
      answerAfter env f history .alternativeCheck = .ok (.verdict true none) ∧
      ∀ P Q, IsQuorum f' P → IsQuorum f' Q → ¬ Disjoint P Q)) := by
  obtain ⟨fR, a, hnew, hR, hst⟩ := start_new env f
  obtain ⟨p, hp⟩ := exists_modeQ env f hR
  obtain ⟨pb, hpb⟩ := exists_modeB env f hR
  have hr : Reach env f fR p pb a := .inl hst
  rw [answerAfter, hnew]
  dsimp only
  rcases hr.calls hR hp hpb history with ⟨a', h1, h2⟩ | ⟨_, h1⟩
  · obtain ⟨K, _, hsm, hfs⟩ := h2.shrunken hR hp hpb
    rw [h1]
    refine ⟨K, a'.fbasShrunken, fun _ => hfs, ?_⟩
    dsimp only
    rcases alternativeCheck_error (env := env) (p := ⟨K, fR, [], [], []⟩) hsm hfs
        with ⟨_, h3⟩ | ⟨l, h3, h4⟩ | ⟨h4, h3, h5⟩
    · rw [h3]; exact .inl rfl
    · rw [h3]; exact .inr (.inl ⟨l, rfl, h4⟩)
    · rw [h3]; exact .inr (.inr ⟨h4, rfl, h5⟩)
  · rw [h1]
    exact ⟨∅, fR, fun h => absurd rfl h, .inl rfl⟩

end
end FA
