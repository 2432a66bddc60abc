import Verif.Lemmas.FrontEndModes

/-!
# When calls do not panic, and FBASs that stay well-shaped when shrunk
-/

namespace FA
open Spec Analysis QuorumSet

section
variable {env : Env} {f fR : Fbas} {pq pb : Params} {a : Analysis}

/-- No panics if the alternative check is not used, or if the shrunken FBASs have quorums. -/
theorem reach_calls_ok (hR : IsShrunken f (f.relevantNodes env) fR)
    (hq : ModeQ env f fR pq) (hb : ModeB env f fR pb)
    (hcR : Covers f (f.relevantNodes env)) (hcq : Covers f pq.K) (hcb : Covers f pb.K)
    (hex : ∃ Q, IsQuorum f Q)
    (h : Reach env f fR pq pb a) (history : List Call) :
    ∃ a', calls env history a = .ok a' ∧ Reach env f fR pq pb a' := by
  induction history generalizing a with
  | nil => exact ⟨a, rfl, h⟩
  | cons c cs ih =>
    rw [Analysis.calls]
    by_cases hc : c = .alternativeCheck
    · subst hc
      obtain ⟨K, hK, hsm, hfs⟩ := h.shrunken hR hq hb
      have hcK : Covers f K := by rcases hK with rfl | rfl | rfl <;> assumption
      rcases alternativeCheck_error (env := env) (p := ⟨K, fR, [], [], []⟩) hsm hfs
        with ⟨h0, h1⟩ | ⟨l, h1, _⟩ | ⟨_, h1, _⟩
      · exact absurd ((hfs.exists_quorum hcK).2 hex) h0
      · rw [h1]; exact ih h
      · rw [h1]; exact ih h
    · obtain ⟨ans, a', h1, h2⟩ := h.call hR hq hb hc
      rw [h1]; exact ih h2

theorem reachQ_calls_ok (hwf : WF f) (hR : IsShrunken f (f.relevantNodes env) fR)
    (hq : ModeQ env f fR pq) (hex : ∃ Q, IsQuorum f Q)
    (history : List Call) (h : ReachQ env f fR pq a)
    (hf : Start env f fR a → ¬ BlockingFirst history) :
    ∃ a', calls env history a = .ok a' := by
  obtain ⟨pb, hb⟩ := exists_modeB env f hR
  have hcR := covers_relevant (env := env) hwf
  have hcq := Covers.of_topTier (hq.exact hwf hR).1.K
  induction history generalizing a with
  | nil => exact ⟨a, rfl⟩
  | cons c cs ih =>
    have hr : Reach env f fR pq pb a := h.imp id .inl
    have hstep : ∃ ans a', a.call env c = .ok (ans, a') := by
      by_cases hc : c = .alternativeCheck
      · subst hc
        have hsh : ∃ K, Covers f K ∧ a.shrinkManager = ShrinkManager.new K ∧
            IsShrunken f K a.fbasShrunken := by
          rcases h with h | ⟨h, _⟩
          · exact ⟨_, hcR, by rw [h], by rw [h]; exact hR⟩
          · exact ⟨_, hcq, h.sm, h.fs ▸ hq.is⟩
        obtain ⟨K, hcK, hsm, hfs⟩ := hsh
        rcases alternativeCheck_error (env := env) (p := ⟨K, fR, [], [], []⟩) hsm hfs
          with ⟨h0, h1⟩ | ⟨l, h1, _⟩ | ⟨_, h1, _⟩
        · exact absurd ((hfs.exists_quorum hcK).2 hex) h0
        · exact ⟨_, _, h1⟩
        · exact ⟨_, _, h1⟩
      · obtain ⟨ans, a', h1, _⟩ := hr.call hR hq hb hc
        exact ⟨ans, a', h1⟩
    obtain ⟨ans, a', h1⟩ := hstep
    rw [Analysis.calls, h1]
    have hone : calls env [c] a = .ok a' := by
      rw [Analysis.calls, h1]; rfl
    have hnb : Start env f fR a → ¬ BlockingFirst [c] := by
      rintro hs ⟨pre, post, he, hpre⟩
      exact hf hs ⟨pre, post ++ cs, by rw [← List.cons_append, ← List.append_assoc, ← he]; rfl, hpre⟩
    obtain ⟨h2, h3⟩ := reachQ_calls hR hq [c] h hnb hone
    refine ih h2 (fun hs => ?_)
    obtain ⟨h4, h5⟩ := h3 hs
    intro hbf
    exact hf h4 (blockingFirst_cons.2 (.inr ⟨h5 c List.mem_cons_self, hbf⟩))

end

/-! ### Panics of `answerAfter` -/

section
variable {env : Env} {f : Fbas}

theorem answer_no_panic (env : Env) (f : Fbas) (history : List Call) (c : Call)
    (hh : .alternativeCheck ∉ history) (hc : c ≠ .alternativeCheck) :
    ∃ ans, answerAfter env f history c = .ok ans := by
  obtain ⟨fR, a, hnew, hR, hst⟩ := start_new env f
  obtain ⟨p, hp⟩ := exists_modeQ env f hR
  obtain ⟨pb, hpb⟩ := exists_modeB env f hR
  have hr : Reach env f fR p pb a := .inl hst
  rw [answerAfter, hnew]
  dsimp only
  rcases hr.calls hR hp hpb history with ⟨a', h1, h2⟩ | ⟨h1, _⟩
  · rw [h1]
    obtain ⟨ans, a'', h3, _⟩ := h2.call hR hp hpb hc
    dsimp only
    rw [h3]
    exact ⟨ans, rfl⟩
  · exact absurd h1 hh

theorem calls_append (env : Env) (h₁ h₂ : List Call) (a : Analysis) :
    calls env (h₁ ++ h₂) a = match calls env h₁ a with
      | .error e => .error e
      | .ok a' => calls env h₂ a' := by
  induction h₁ generalizing a with
  | nil => rfl
  | cons c cs ih =>
    simp only [List.cons_append, Analysis.calls]
    split
    · rfl
    next ans a' h => exact ih a'

theorem answerAfter_ok_of_calls {env : Env} {f : Fbas} {history : List Call} {c : Call}
    {a a' : Analysis} (hnew : Analysis.new env f = .ok a)
    (h : calls env (history ++ [c]) a = .ok a') : ∃ ans, answerAfter env f history c = .ok ans := by
  rw [answerAfter, hnew]
  dsimp only
  rw [calls_append] at h
  split at h
  · cases h
  next a₁ h₁ =>
    rw [h₁]
    dsimp only
    rw [Analysis.calls] at h
    split at h
    · cases h
    next ans a₂ h₂ => rw [h₂]; exact ⟨ans, rfl⟩

theorem answer_no_panic_quorums_first (env : Env) (hwf : WF f) (hex : ∃ Q, IsQuorum f Q)
    (history : List Call) (c : Call) (hb : ¬ BlockingFirst (history ++ [c])) :
    ∃ ans, answerAfter env f history c = .ok ans := by
  obtain ⟨fR, a, hnew, hR, hst⟩ := start_new env f
  obtain ⟨p, hp⟩ := exists_modeQ env f hR
  obtain ⟨a', h⟩ := reachQ_calls_ok hwf hR hp hex (history ++ [c]) (.inl hst) (fun _ => hb)
  exact answerAfter_ok_of_calls hnew h

theorem answer_no_panic_shaped (env : Env) (hwf : WF f) (hex : ∃ Q, IsQuorum f Q)
    (hs : ShapedOn f (f.relevantNodes env)) (history : List Call) (c : Call) :
    ∃ ans, answerAfter env f history c = .ok ans := by
  obtain ⟨fR, a, hnew, hR, hst⟩ := start_new env f
  obtain ⟨p, hp⟩ := exists_modeQ env f hR
  obtain ⟨pb, hpb⟩ := exists_modeB env f hR
  obtain ⟨a', h, _⟩ := reach_calls_ok hR hp hpb (covers_relevant hwf)
    (Covers.of_topTier (hp.exact hwf hR).1.K) (Covers.of_topTier (hpb.exact hwf hR hs).1.K) hex
    (.inl hst) (history ++ [c])
  exact answerAfter_ok_of_calls hnew h

/-- Answers of the alternative check if blocking sets are not computed first. -/
theorem answer_alternative_quorums_first (env : Env) (hwf : WF f) (hex : ∃ Q, IsQuorum f Q)
    (history : List Call) (hb : ¬ BlockingFirst history) :
    ((¬ QuorumIntersection f ∧
        ∃ l, answerAfter env f history .alternativeCheck = .ok (.verdict false (some l)) ∧
      2 ≤ l.length ∧ l.Pairwise Disjoint ∧ ∀ S ∈ l, IsQuorum f S) ∨
    (QuorumIntersection f ∧
      answerAfter env f history .alternativeCheck = .ok (.verdict true none))) := by
  obtain ⟨fR, a, hnew, hR, hst⟩ := start_new env f
  obtain ⟨p, hp⟩ := exists_modeQ env f hR
  obtain ⟨a', h⟩ := reachQ_calls_ok hwf hR hp hex history (.inl hst) (fun _ => hb)
  have h2 := (reachQ_calls hR hp history (.inl hst) (fun _ => hb) h).1
  have hsh : ∃ K, Covers f K ∧ a'.shrinkManager = ShrinkManager.new K ∧
      IsShrunken f K a'.fbasShrunken := by
    rcases h2 with h | ⟨h, _⟩
    · exact ⟨_, covers_relevant hwf, by rw [h], by rw [h]; exact hR⟩
    · exact ⟨_, Covers.of_topTier (hp.exact hwf hR).1.K, h.sm, h.fs ▸ hp.is⟩
  obtain ⟨K, hcK, hsm, hfs⟩ := hsh
  rw [answerAfter, hnew]
  dsimp only
  rw [h]
  dsimp only
  rcases alternativeCheck_error (env := env) (p := ⟨K, fR, [], [], []⟩) hsm hfs
    with ⟨h0, h1⟩ | ⟨l, h1, h3, h4, h5⟩ | ⟨h3, h1, h4⟩
  · exact absurd ((hfs.exists_quorum hcK).2 hex) h0
  · left
    refine ⟨fun hqi => ?_, l, by rw [h1]; rfl, h3, h4, h5⟩
    match l, h3, h4, h5 with
    | P :: Q :: l, _, h4, h5 =>
      obtain ⟨x, hx, hx'⟩ := hqi.2 P Q (h5 P (by simp)) (h5 Q (by simp))
      exact Finset.disjoint_left.1 ((List.pairwise_cons.1 h4).1 Q (by simp)) hx hx'
  · right
    refine ⟨?_, by rw [h1]; rfl⟩
    rw [← hfs.quorumIntersection hcK]
    refine ⟨h3, fun P Q hP hQ => ?_⟩
    have := h4 P Q hP hQ
    rwa [Finset.not_disjoint_iff] at this

/-- ... and for any history of calls on a well-shaped FBAS. -/
theorem answer_alternative_shaped (env : Env) (hwf : WF f) (hex : ∃ Q, IsQuorum f Q)
    (hs : ShapedOn f (f.relevantNodes env)) (history : List Call) :
    ((¬ QuorumIntersection f ∧
        ∃ l, answerAfter env f history .alternativeCheck = .ok (.verdict false (some l)) ∧
      2 ≤ l.length ∧ l.Pairwise Disjoint ∧ ∀ S ∈ l, IsQuorum f S) ∨
    (QuorumIntersection f ∧
      answerAfter env f history .alternativeCheck = .ok (.verdict true none))) := by
  obtain ⟨fR, a, hnew, hR, hst⟩ := start_new env f
  obtain ⟨p, hp⟩ := exists_modeQ env f hR
  obtain ⟨pb, hpb⟩ := exists_modeB env f hR
  have hcR := covers_relevant (env := env) hwf
  have hcq := Covers.of_topTier (hp.exact hwf hR).1.K
  have hcb := Covers.of_topTier (hpb.exact hwf hR hs).1.K
  obtain ⟨a', h, h2⟩ := reach_calls_ok hR hp hpb hcR hcq hcb hex (.inl hst) history
  obtain ⟨K, hK, hsm, hfs⟩ := h2.shrunken hR hp hpb
  have hcK : Covers f K := by rcases hK with rfl | rfl | rfl <;> assumption
  rw [answerAfter, hnew]
  dsimp only
  rw [h]
  dsimp only
  rcases alternativeCheck_error (env := env) (p := ⟨K, fR, [], [], []⟩) hsm hfs
    with ⟨h0, h1⟩ | ⟨l, h1, h3, h4, h5⟩ | ⟨h3, h1, h4⟩
  · exact absurd ((hfs.exists_quorum hcK).2 hex) h0
  · left
    refine ⟨fun hqi => ?_, l, by rw [h1]; rfl, h3, h4, h5⟩
    match l, h3, h4, h5 with
    | P :: Q :: l, _, h4, h5 =>
      obtain ⟨x, hx, hx'⟩ := hqi.2 P Q (h5 P (by simp)) (h5 Q (by simp))
      exact Finset.disjoint_left.1 ((List.pairwise_cons.1 h4).1 Q (by simp)) hx hx'
  · right
    refine ⟨?_, by rw [h1]; rfl⟩
    rw [← hfs.quorumIntersection hcK]
    refine ⟨h3, fun P Q hP hQ => ?_⟩
    have := h4 P Q hP hQ
    rwa [Finset.not_disjoint_iff] at this

end

/-! ### Shape of shrunken FBASs -/

theorem isShrunken_of_shrunken {f f' : Fbas} {K : NodeSet} {sm : ShrinkManager}
    (h : f.shrunken K = .ok (f', sm)) : IsShrunken f K f' := by
  obtain ⟨g, h1, h2⟩ := f.shrunken_ok K
  rw [h] at h1
  have h3 : f' = g := congrArg Prod.fst (Except.ok.inj h1)
  exact h3 ▸ h2

theorem IsShrunken.qset_eq {f f' f'' : Fbas} {K : NodeSet} (h : IsShrunken f K f')
    (h' : IsShrunken f K f'') : f'.nodes.length = f''.nodes.length ∧ ∀ x, f'.qset x = f''.qset x := by
  refine ⟨h.len.trans h'.len.symm, fun x => ?_⟩
  by_cases hx : x < K.card
  · rw [h.qset x hx, h'.qset x hx]
  · have h1 : K.card ≤ x := not_lt.1 hx
    rw [Fbas.qset_of_ge (h.len.symm ▸ h1), Fbas.qset_of_ge (h'.len.symm ▸ h1)]

theorem symCluster_congr {f f' : Fbas} (h : f.nodes.length = f'.nodes.length)
    (hq : ∀ x, f.qset x = f'.qset x) (q : QuorumSet) : SymCluster f q → SymCluster f' q := by
  have h1 : ∀ x q, HasQSet f x q ↔ HasQSet f' x q := by
    intro x q; rw [hasQSet_iff, hasQSet_iff, h, hq]
  rintro ⟨h2, Q, ⟨h3, h4⟩, h5⟩
  exact ⟨fun x hx => (h1 x q).1 (h2 x hx), Q, ⟨h3, fun x hx =>
    (h4 x hx).imp (fun q h => ⟨(h1 x q).1 h.1, h.2⟩)⟩, h5⟩

theorem shapedOn_iff (f : Fbas) (K : NodeSet) : ShapedOn f K ↔
    ∀ f' sm, f.shrunken K = .ok (f', sm) → ∀ q, SymCluster f' q → DupFree q ∧ Sane q := by
  constructor
  · intro h f' sm hs
    exact h f' (isShrunken_of_shrunken hs)
  · intro h f' hf' q hq
    obtain ⟨g, h1, h2⟩ := f.shrunken_ok K
    obtain ⟨h3, h4⟩ := hf'.qset_eq h2
    exact h g _ h1 q (symCluster_congr h3 h4 q hq)

/-- In a symmetric cluster the top-level threshold is sane. -/
theorem symCluster_threshold {f : Fbas} {q : QuorumSet} (hq : SymCluster f q) :
    1 ≤ q.threshold ∧ q.threshold ≤ q.validators.length + q.inner.length := by
  obtain ⟨h1, Q, ⟨⟨x, hx⟩, h2⟩, h3⟩ := hq
  obtain ⟨q', h4, h5⟩ := h2 x hx
  have h6 : q' = q := by
    rw [← (hasQSet_iff.1 h4).2, (hasQSet_iff.1 (h1 x (h3 x hx))).2]
  subst h6
  cases h5 with
  | intro _ vs qs hvs hqs _ _ hpos hlen =>
    have h7 := hvs.length_le
    have h8 := hqs.length_le
    omega

/-- Flat quorum sets without repeated validators. -/
def FlatNodup (f : Fbas) : Prop :=
  ∀ x q, HasQSet f x q → q.inner = [] ∧ q.validators.Nodup

theorem flat_inner {f : Fbas} (h : FlatNodup f) {K : NodeSet} {f' : Fbas} (hf' : IsShrunken f K f')
    {q : QuorumSet} (hq : SymCluster f' q) : q.inner = [] := by
  obtain ⟨h1, Q, ⟨⟨x, hx⟩, _⟩, h3⟩ := hq
  obtain ⟨hlt, hqs⟩ := hasQSet_iff.1 (h1 x (h3 x hx))
  rw [hf'.len] at hlt
  rw [hf'.qset x hlt] at hqs
  have hflat : (f.qset (un K x)).inner = [] := by
    by_cases hlt' : un K x < f.nodes.length
    · exact (h _ _ (hasQSet_iff.2 ⟨hlt', rfl⟩)).1
    · rw [Fbas.qset_of_ge (by omega)]; simp [QuorumSet.empty]
  have := shrunken_inner_perm (ShrinkManager.new K).shrinkMap (f.qset (un K x))
  rw [hqs, hflat] at this
  simpa using this

theorem flat_shaped {f : Fbas} (h : FlatNodup f) (K : NodeSet) : ShapedOn f K := by
  intro f' hf' q hq
  have hthr := symCluster_threshold hq
  obtain ⟨h1, Q, ⟨⟨x, hx⟩, _⟩, h3⟩ := hq
  obtain ⟨hlt, hqs⟩ := hasQSet_iff.1 (h1 x (h3 x hx))
  rw [hf'.len] at hlt
  rw [hf'.qset x hlt] at hqs
  have hun : un K x ∈ K := un_mem hlt
  have hflat : (f.qset (un K x)).inner = [] ∧ (f.qset (un K x)).validators.Nodup := by
    by_cases hlt' : un K x < f.nodes.length
    · exact h _ _ (hasQSet_iff.2 ⟨hlt', rfl⟩)
    · rw [Fbas.qset_of_ge (by omega)]; simp [QuorumSet.empty]
  generalize f.qset (un K x) = q₀ at hqs hflat
  have hinner : q.inner = [] := by
    have := shrunken_inner_perm (ShrinkManager.new K).shrinkMap q₀
    rw [hqs, hflat.1] at this
    simpa using this
  have hv : q.validators.Nodup := by
    have := shrunken_validators_perm (ShrinkManager.new K).shrinkMap q₀
    rw [hqs] at this
    rw [this.nodup_iff]
    refine List.Nodup.filterMap ?_ hflat.2
    intro a a' b hb hb'
    rw [Option.mem_def] at hb hb'
    rw [← ((shrinkMap_get? K a b).1 hb).2, ← ((shrinkMap_get? K a' b).1 hb').2]
  exact ⟨.intro q hv (by simp [hinner]) (by simp [hinner]) (by simp [hinner]),
    .intro q hthr.1 hthr.2 (by simp [hinner])⟩

end FA
