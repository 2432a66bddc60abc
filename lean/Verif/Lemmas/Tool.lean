import Verif.Model.Tool
import Verif.Props.Output
import Verif.Props.FrontEnd
import Verif.Lemmas.FrontEndShape

/-!
# Proofs about the command line tool
-/

namespace FA
open Spec Analysis

/-! ### The state of the `Analysis` object -/

/-- The constants of an object for `f`. -/
structure Setting (env : Env) (f fR : Fbas) (pq pb : Params) : Prop where
  hR : IsShrunken f (f.relevantNodes env) fR
  hq : ModeQ env f fR pq
  hb : ModeB env f fR pb

theorem exists_setting (env : Env) (f : Fbas) : ∃ fR pq pb a, Setting env f fR pq pb ∧
    Analysis.new env f = .ok a ∧ Start env f fR a := by
  obtain ⟨fR, a, h1, h2, h3⟩ := start_new env f
  obtain ⟨pq, h4⟩ := exists_modeQ env f h2
  obtain ⟨pb, h5⟩ := exists_modeB env f h2
  exact ⟨fR, pq, pb, a, ⟨h2, h4, h5⟩, h1, h3⟩

/-- The object after the calls `h`. -/
structure After (env : Env) (f fR : Fbas) (pq pb : Params) (h : List Call) (a : Analysis) : Prop where
  reach : Reach env f fR pq pb a
  calls : ∃ a₀, Analysis.new env f = .ok a₀ ∧ Analysis.calls env h a₀ = .ok a

section
variable {env : Env} {f fR : Fbas} {pq pb : Params} {h : List Call} {a : Analysis}

theorem After.new (hn : Analysis.new env f = .ok a)
    (hs : Start env f fR a) : After env f fR pq pb [] a := ⟨.inl hs, a, hn, rfl⟩

theorem After.answer (ha : After env f fR pq pb h a) (c : Call) :
    answerAfter env f h c = (a.call env c).map Prod.fst := by
  obtain ⟨a₀, h1, h2⟩ := ha.calls
  unfold answerAfter
  rw [h1]; dsimp only
  rw [h2]

theorem After.snoc (ha : After env f fR pq pb h a) {c : Call} {ans : Answer} {a' : Analysis}
    (hc : a.call env c = .ok (ans, a')) (hr : Reach env f fR pq pb a') :
    After env f fR pq pb (h ++ [c]) a' := by
  obtain ⟨a₀, h1, h2⟩ := ha.calls
  refine ⟨hr, a₀, h1, ?_⟩
  rw [calls_append, h2]
  dsimp only
  rw [Analysis.calls, hc]
  rfl

/-- A call that does not panic, repeated. -/
theorem After.call (s : Setting env f fR pq pb) (ha : After env f fR pq pb h a) {c : Call}
    (hc : c ≠ .alternativeCheck) : ∃ ans a', a.call env c = .ok (ans, a') ∧
      answerAfter env f h c = .ok ans ∧ After env f fR pq pb (h ++ [c]) a' := by
  obtain ⟨ans, a', h1, h2⟩ := ha.reach.call s.hR s.hq s.hb hc
  refine ⟨ans, a', h1, ?_, ha.snoc h1 h2⟩
  rw [ha.answer, h1]; rfl

/-- After an active call, the same call gives the same answer. -/
theorem After.again (s : Setting env f fR pq pb) (ha : After env f fR pq pb h a) {c : Call}
    (hact : ∀ p, ∃ ans, answerOf p c = some ans) (ht : c ≠ .topTier) {ans : Answer} {a' : Analysis}
    (hc : a.call env c = .ok (ans, a')) : ∃ a'', a'.call env c = .ok (ans, a'') ∧
      After env f fR pq pb (h ++ [c] ++ [c]) a'' := by
  have key : ∀ p : Params, p.Good → (∀ b : Analysis, At env f p b → (a.mq ≠ none → b.mq ≠ none) →
      Reach env f fR pq pb b) → (answerOf p c = some ans) → At env f p a' →
      Reach env f fR pq pb a' →
      (∀ b : Analysis, At env f p b → (a'.mq ≠ none → b.mq ≠ none) → Reach env f fR pq pb b) →
      ∃ a'', a'.call env c = .ok (ans, a'') ∧ After env f fR pq pb (h ++ [c] ++ [c]) a'' := by
    intro p hg _ hans hat hra hr
    obtain ⟨a'', h1, h2, h3 | ⟨h3, -⟩⟩ := hat.call hg hans
    · exact ⟨a'', h3, (ha.snoc hc hra).snoc h3 (hr _ h1 h2)⟩
    · exact absurd h3 ht
  have hQ : ∀ b : Analysis, At env f pq b → a'.mq ≠ none → (a'.mq ≠ none → b.mq ≠ none) →
      Reach env f fR pq pb b := fun b hb hk h => .inr (.inl ⟨hb, h hk⟩)
  have hB : ∀ b : Analysis, At env f pb b → Reach env f fR pq pb b := fun b hb => .inr (.inr hb)
  rcases ha.reach with hs | ⟨hat, hk⟩ | hat
  · by_cases hbl : c = .minimalBlockingSets
    · subst hbl
      obtain ⟨a₁, h1, h2⟩ := hs.call_blocking s.hR s.hb
      rw [hc] at h2
      obtain ⟨e1, e2⟩ := Prod.mk.inj (Except.ok.inj h2)
      subst e1 e2
      obtain ⟨a'', h3, -, h4 | ⟨h4, -⟩⟩ := h1.call s.hb.good (c := .minimalBlockingSets) rfl
      · exact ⟨a'', h4, (ha.snoc hc (hB _ h1)).snoc h4 (hB _ h3)⟩
      · cases h4
    · obtain ⟨ans', hans⟩ := hact pq
      obtain ⟨a₁, h1, h2, h3⟩ := hs.call s.hR s.hq hans hbl
      rw [hc] at h3
      obtain ⟨e1, e2⟩ := Prod.mk.inj (Except.ok.inj h3)
      subst e1 e2
      obtain ⟨a'', h4, h5, h6 | ⟨h6, -⟩⟩ := h1.call s.hq.good hans
      · exact ⟨a'', h6, (ha.snoc hc (.inr (.inl ⟨h1, h2⟩))).snoc h6 (.inr (.inl ⟨h4, h5 h2⟩))⟩
      · exact absurd h6 ht
  · obtain ⟨ans', hans⟩ := hact pq
    obtain ⟨a₁, h1, h2, h3 | ⟨h3, -⟩⟩ := hat.call s.hq.good hans
    · rw [hc] at h3
      obtain ⟨e1, e2⟩ := Prod.mk.inj (Except.ok.inj h3)
      subst e1 e2
      obtain ⟨a'', h4, h5, h6 | ⟨h6, -⟩⟩ := h1.call s.hq.good hans
      · exact ⟨a'', h6, (ha.snoc hc (.inr (.inl ⟨h1, h2 hk⟩))).snoc h6
          (.inr (.inl ⟨h4, h5 (h2 hk)⟩))⟩
      · exact absurd h6 ht
    · exact absurd h3 ht
  · obtain ⟨ans', hans⟩ := hact pb
    obtain ⟨a₁, h1, h2, h3 | ⟨h3, -⟩⟩ := hat.call s.hb.good hans
    · rw [hc] at h3
      obtain ⟨e1, e2⟩ := Prod.mk.inj (Except.ok.inj h3)
      subst e1 e2
      obtain ⟨a'', h4, -, h6 | ⟨h6, -⟩⟩ := h1.call s.hb.good hans
      · exact ⟨a'', h6, (ha.snoc hc (hB _ h1)).snoc h6 (hB _ h4)⟩
      · exact absurd h6 ht
    · exact absurd h3 ht

/-- The kept IDs are nodes of the FBAS. -/
theorem After.table (hwf : WF f) (s : Setting env f fR pq pb) (ha : After env f fR pq pb h a) :
    ∃ K : NodeSet, (∀ x ∈ K, x < f.nodes.length) ∧ a.shrinkManager = ShrinkManager.new K ∧
      IsShrunken f K a.fbasShrunken := by
  obtain ⟨K, hK, h1, h2⟩ := ha.reach.shrunken s.hR s.hq s.hb
  have hrel : ∀ x ∈ f.relevantNodes env, x < f.nodes.length := by
    intro x hx
    obtain ⟨⟨Q, hQ, hxQ⟩, -⟩ := (Props.C08_relevant_iff env f hwf x).1 hx
    exact Finset.mem_range.1 (hQ.subset_all hxQ)
  have hun : ∀ V : NodeSet, V ⊆ Finset.range (f.relevantNodes env).card →
      ∀ x ∈ unSet (f.relevantNodes env) V, x < f.nodes.length := by
    intro V hV x hx
    obtain ⟨i, hi, rfl⟩ := Finset.mem_image.1 hx
    exact hrel _ (un_mem (Finset.mem_range.1 (hV hi)))
  refine ⟨K, ?_, h1, h2⟩
  rcases hK with rfl | rfl | rfl
  · exact hrel
  · obtain ⟨QR, hQ, hK, -⟩ := s.hq.QR
    rw [hK]
    refine hun _ ?_
    rw [involvedNodes, unionAll_subset]
    intro S hS
    obtain ⟨L, g1, g2, _⟩ := findMinimalQuorums_spec env s.hR.wf
    rw [hQ] at g1
    rw [Except.ok.inj g1, g2] at hS
    exact s.hR.quorum_subset hS.prop
  · obtain ⟨BR, hB, hK, -⟩ := s.hb.BR
    rw [hK]
    refine hun _ ?_
    rw [involvedNodes, unionAll_subset]
    intro S hS
    rw [← s.hR.subset]
    exact findMinimalBlockingSets_subset env s.hR.wf hB hS

end
end FA
