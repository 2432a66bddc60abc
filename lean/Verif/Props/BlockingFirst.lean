import Verif.Props.FrontEndSound

/-!
# C12, C18, C27, C28: what `Analysis` reports if minimal blocking sets are computed first

`minimal_blocking_sets()` as first computing call restricts the FBAS to the nodes in reported blocking sets.
This file says exactly what that means for all other answers, for all FBASs.
-/

namespace FA
open Spec Analysis

section
variable {env : Env} {f fR : Fbas} {pb : Params}

/-- If blocking sets are computed first, then the mode is `pb`. -/
theorem reachB_calls (hR : IsShrunken f (f.relevantNodes env) fR) (hb : ModeB env f fR pb)
    (history : List Call) {a a' : Analysis}
    (h : Start env f fR a ∧ BlockingFirst history ∨ At env f pb a)
    (hc : calls env history a = .ok a') : At env f pb a' := by
  induction history generalizing a with
  | nil =>
    rw [Analysis.calls] at hc
    rw [← Except.ok.inj hc]
    rcases h with ⟨_, pre, post, he, _⟩ | h
    · simp at he
    · exact h
  | cons c cs ih =>
    rw [Analysis.calls] at hc
    split at hc
    · cases hc
    next ans a₁ h₁ =>
      refine ih ?_ hc
      by_cases hpas : Passive c
      · have ha₁ : a₁ = a := by
          by_cases halt : c = .alternativeCheck
          · subst halt
            exact alternativeCheck_same h₁
          · have horig : a.fbasOriginal = f := by
              rcases h with ⟨h, _⟩ | h
              · rw [h]
              · exact h.orig
            obtain ⟨ans', hans⟩ := call_static env f ⟨hpas, halt⟩
            rw [hans a horig] at h₁
            exact (congrArg Prod.snd (Except.ok.inj h₁)).symm
        subst ha₁
        rcases h with ⟨h, hbf⟩ | h
        · rcases blockingFirst_cons.1 hbf with rfl | ⟨_, hbf⟩
          · exact absurd rfl hpas.2.2.1
          · exact .inl ⟨h, hbf⟩
        · exact .inr h
      · right
        have hact : ∀ p, ∃ ans, answerOf p c = some ans := by
          rcases call_cases c with hs | rfl | ha
          · exact absurd hs.1 hpas
          · exact absurd (by simp [Passive]) hpas
          · exact ha
        rcases h with ⟨h, hbf⟩ | h
        · rcases blockingFirst_cons.1 hbf with rfl | ⟨hp, _⟩
          · obtain ⟨a₂, h2, h3⟩ := h.call_blocking hR hb
            rw [h3] at h₁
            have := congrArg Prod.snd (Except.ok.inj h₁)
            dsimp only at this
            exact this ▸ h2
          · exact absurd hp hpas
        · obtain ⟨ans', hans⟩ := hact pb
          obtain ⟨a₂, h2, -, h3 | ⟨_, _, h3⟩⟩ := h.call hb.good hans
          all_goals
            rw [h3] at h₁
            have := congrArg Prod.snd (Except.ok.inj h₁)
            dsimp only at this
            exact this ▸ h2

/-- Answers if blocking sets are computed first. -/
theorem answer_blocking_first (env : Env) (f : Fbas) : ∃ fR p, IsShrunken f (f.relevantNodes env) fR ∧
    ModeB env f fR p ∧
    answerAfter env f [] .minimalBlockingSets = .ok (.sets (p.B.map (unSet p.K))) ∧
    ∀ history c ans, BlockingFirst history → answerAfter env f history c = .ok ans →
      ∀ ans', answerOf p c = some ans' → ans = ans' ∨
        (c = .topTier ∧ ans = .set (unSet p.K (involvedNodes p.B))) := by
  obtain ⟨fR, a, hnew, hR, hst⟩ := start_new env f
  obtain ⟨p, hp⟩ := exists_modeB env f hR
  refine ⟨fR, p, hR, hp, ?_, fun history c ans hbf h ans' hans => ?_⟩
  · obtain ⟨a', _, h2⟩ := hst.call_blocking hR hp
    simp only [answerAfter, hnew, Analysis.calls]
    rw [h2]; rfl
  · simp only [answerAfter, hnew] at h
    cases hcalls : calls env history a with
    | error e => rw [hcalls] at h; cases h
    | ok a' =>
      rw [hcalls] at h
      dsimp only at h
      obtain ⟨a'', -, -, h3 | ⟨h4, -, h3⟩⟩ := (reachB_calls hR hp history (.inl ⟨hst, hbf⟩) hcalls).call hp.good hans
      · rw [h3] at h
        exact .inl (Except.ok.inj h).symm
      · rw [h3] at h
        exact .inr ⟨h4, (Except.ok.inj h).symm⟩

end
end FA

namespace FA.Props
open FA Spec Analysis

/-- C12, C18, C27, C28, for all FBASs and all histories in which minimal blocking sets are computed first:
let `L` be the blocking sets reported by a new object and `U` the nodes in these sets. Then `L` is reported
again, the reported minimal quorums are the minimal quorums within `U`, the verdict is about these quorums
only, and the reported top tier consists of the nodes in `U` or of the nodes in these quorums. -/
theorem C28_blocking_first (env : Env) (f : Fbas) :
    ∃ L, answerAfter env f [] .minimalBlockingSets = .ok (.sets L) ∧
      ∀ U : NodeSet, (∀ x, x ∈ U ↔ ∃ S ∈ L, x ∈ S) → ∀ history, StartsWithBlockingSets history →
        (∀ ans, answerAfter env f history .minimalBlockingSets = .ok ans → ans = .sets L) ∧
        (∀ ans, answerAfter env f history .minimalQuorums = .ok ans →
          ∃ Qs, ans = .sets Qs ∧ ∀ Q, Q ∈ Qs ↔ IsMinQuorum f Q ∧ Q ⊆ U) ∧
        (∀ ans, answerAfter env f history .hasQuorumIntersection = .ok ans →
          ∃ b, ans = .bool b ∧ (b = true ↔ (∃ Q, IsMinQuorum f Q ∧ Q ⊆ U) ∧
            ∀ P Q, IsMinQuorum f P → IsMinQuorum f Q → P ⊆ U → Q ⊆ U → ∃ x, x ∈ P ∧ x ∈ Q)) ∧
        (∀ ans, answerAfter env f history .topTier = .ok ans →
          ∃ T, ans = .set T ∧ (T = U ∨ ∀ x, x ∈ T ↔ ∃ Q, IsMinQuorum f Q ∧ Q ⊆ U ∧ x ∈ Q)) := by
  obtain ⟨fR, p, hR, hp, h1, h2⟩ := answer_blocking_first env f
  refine ⟨_, h1, fun U hU history hst => ?_⟩
  rw [startsWithBlockingSets_iff] at hst
  obtain ⟨BR, hB, hK, hpB⟩ := hp.BR
  have hUK : U = p.K := by
    ext x
    rw [hU, hpB, map_reshrink hK, hK]
    constructor
    · rintro ⟨S, hS, hx⟩
      obtain ⟨T, hT, rfl⟩ := List.mem_map.1 hS
      obtain ⟨i, hi, rfl⟩ := Finset.mem_image.1 hx
      exact Finset.mem_image_of_mem _ (mem_involvedNodes.2 ⟨T, hT, hi⟩)
    · intro hx
      obtain ⟨i, hi, rfl⟩ := Finset.mem_image.1 hx
      obtain ⟨T, hT, hi⟩ := mem_involvedNodes.1 hi
      exact ⟨_, List.mem_map_of_mem hT, Finset.mem_image_of_mem _ hi⟩
  have hQ : ∀ S, S ∈ p.Q ↔ IsMinQuorum p.f' S := by
    obtain ⟨L, e1, e2, _⟩ := findMinimalQuorums_spec env hp.is.wf
    rw [hp.Q] at e1
    obtain rfl := Except.ok.inj e1
    exact e2
  have hQs : ∀ Q, Q ∈ p.Q.map (unSet p.K) ↔ IsMinQuorum f Q ∧ Q ⊆ U := by
    intro Q
    rw [List.mem_map, hUK]
    constructor
    · rintro ⟨S, hS, rfl⟩
      obtain ⟨e1, e2⟩ := hp.is.isMinQuorum.1 ((hQ S).1 hS)
      exact ⟨e2, unSet_subset e1⟩
    · rintro ⟨e1, e2⟩
      refine ⟨shrSet p.K Q, (hQ _).2 (hp.is.isMinQuorum.2 ⟨shrSet_subset _ _, ?_⟩), unSet_shrSet_of_subset e2⟩
      rwa [unSet_shrSet_of_subset e2]
  have hI : unSet p.K (involvedNodes p.B) = U := by
    ext x
    rw [hU]
    constructor
    · intro hx
      obtain ⟨i, hi, rfl⟩ := Finset.mem_image.1 hx
      obtain ⟨T, hT, hi⟩ := mem_involvedNodes.1 hi
      exact ⟨_, List.mem_map_of_mem hT, Finset.mem_image_of_mem _ hi⟩
    · rintro ⟨S, hS, hx⟩
      obtain ⟨T, hT, rfl⟩ := List.mem_map.1 hS
      obtain ⟨i, hi, rfl⟩ := Finset.mem_image.1 hx
      exact Finset.mem_image_of_mem _ (mem_involvedNodes.2 ⟨T, hT, hi⟩)
  have hIQ : ∀ x, x ∈ unSet p.K (involvedNodes p.Q) ↔ ∃ Q, IsMinQuorum f Q ∧ Q ⊆ U ∧ x ∈ Q := by
    intro x
    constructor
    · intro hx
      obtain ⟨i, hi, rfl⟩ := Finset.mem_image.1 hx
      obtain ⟨T, hT, hi⟩ := mem_involvedNodes.1 hi
      obtain ⟨e1, e2⟩ := (hQs _).1 (List.mem_map_of_mem hT)
      exact ⟨_, e1, e2, Finset.mem_image_of_mem _ hi⟩
    · rintro ⟨Q, e1, e2, hx⟩
      obtain ⟨T, hT, rfl⟩ := List.mem_map.1 ((hQs Q).2 ⟨e1, e2⟩)
      obtain ⟨i, hi, rfl⟩ := Finset.mem_image.1 hx
      exact Finset.mem_image_of_mem _ (mem_involvedNodes.2 ⟨T, hT, hi⟩)
  refine ⟨fun ans h => ?_, fun ans h => ?_, fun ans h => ?_, fun ans h => ?_⟩
  · rcases h2 history _ ans hst h _ rfl with h | ⟨h, -⟩
    · exact h
    · cases h
  · rcases h2 history _ ans hst h _ rfl with h | ⟨h, -⟩
    · exact ⟨_, h, hQs⟩
    · cases h
  · rcases h2 history _ ans hst h _ rfl with h | ⟨h, -⟩
    · refine ⟨_, h, ?_⟩
      rw [verdictOf_iff hQ, quorumIntersection_iff_min]
      have hto : ∀ {S}, IsMinQuorum p.f' S → IsMinQuorum f (unSet p.K S) ∧ unSet p.K S ⊆ U := fun hS =>
        (hQs _).1 (List.mem_map_of_mem ((hQ _).2 hS))
      have hfrom : ∀ {Q}, IsMinQuorum f Q → Q ⊆ U → ∃ S, IsMinQuorum p.f' S ∧ unSet p.K S = Q := fun h1 h2 => by
        obtain ⟨S, hS, he⟩ := List.mem_map.1 ((hQs _).2 ⟨h1, h2⟩)
        exact ⟨S, (hQ S).1 hS, he⟩
      constructor
      · rintro ⟨⟨S, hS⟩, hall⟩
        refine ⟨⟨_, hto hS⟩, fun P Q h1 h2 h3 h4 => ?_⟩
        obtain ⟨S, hS, rfl⟩ := hfrom h1 h3
        obtain ⟨T, hT, rfl⟩ := hfrom h2 h4
        obtain ⟨i, hi, hi'⟩ := hall S T hS hT
        exact ⟨_, Finset.mem_image_of_mem _ hi, Finset.mem_image_of_mem _ hi'⟩
      · rintro ⟨⟨Q, h1, h2⟩, hall⟩
        obtain ⟨S, hS, -⟩ := hfrom h1 h2
        refine ⟨⟨S, hS⟩, fun S T hS hT => ?_⟩
        obtain ⟨x, hx, hx'⟩ := hall _ _ (hto hS).1 (hto hT).1 (hto hS).2 (hto hT).2
        obtain ⟨i, hi, rfl⟩ := Finset.mem_image.1 hx
        have hs := hp.is.quorum_subset hS.prop
        exact ⟨i, hi, (un_mem_unSet (hp.is.quorum_subset hT.prop) (Finset.mem_range.1 (hs hi))).1 hx'⟩
    · cases h
  · rcases h2 history _ ans hst h _ rfl with h | ⟨-, h⟩
    · exact ⟨_, h, .inr hIQ⟩
    · exact ⟨_, h, .inl hI⟩

/-- C27, exactly when it holds if minimal blocking sets were computed first: iff every node in the top tier is in
a reported minimal blocking set. -/
theorem C27_blocking_first_iff (env : Env) (f : Fbas) (history : List Call)
    (hs : .alternativeCheck ∉ history) (hst : StartsWithBlockingSets history) (L : List NodeSet)
    (hL : answerAfter env f [] .minimalBlockingSets = .ok (.sets L)) :
    (∃ Qs, answerAfter env f history .minimalQuorums = .ok (.sets Qs) ∧ ∀ Q, Q ∈ Qs ↔ IsMinQuorum f Q) ↔
      ∀ x, InTopTier f x → ∃ S ∈ L, x ∈ S := by
  obtain ⟨L', h1, h2⟩ := C28_blocking_first env f
  rw [hL] at h1
  cases h1
  have hU : ∀ x, x ∈ involvedNodes L ↔ ∃ S ∈ L, x ∈ S := fun x => mem_involvedNodes
  obtain ⟨ans, hans⟩ := C28_no_panic env f history .minimalQuorums hs (by simp)
  obtain ⟨-, h3, -⟩ := h2 _ hU history hst
  obtain ⟨Qs, rfl, hQs⟩ := h3 ans hans
  rw [hans]
  constructor
  · rintro ⟨Qs', h4, h5⟩ x ⟨Q, hQ, hx⟩
    cases h4
    exact (hU x).1 (((hQs Q).1 ((h5 Q).2 hQ)).2 hx)
  · intro h
    refine ⟨Qs, rfl, fun Q => ?_⟩
    rw [hQs]
    exact ⟨fun h => h.1, fun hQ => ⟨hQ, fun x hx => (hU x).2 (h x ⟨Q, hQ, hx⟩)⟩⟩

/-- C12, exactly when the verdict is wrong if minimal blocking sets were computed first: "false" is wrong iff
quorums intersect but no minimal quorum consists of nodes in reported minimal blocking sets; "true" is wrong
iff there are disjoint quorums but the minimal quorums that consist of such nodes do not reveal this. -/
theorem C12_blocking_first_iff (env : Env) (f : Fbas) (history : List Call)
    (hs : .alternativeCheck ∉ history) (hst : StartsWithBlockingSets history) (L : List NodeSet)
    (hL : answerAfter env f [] .minimalBlockingSets = .ok (.sets L)) (U : NodeSet)
    (hU : ∀ x, x ∈ U ↔ ∃ S ∈ L, x ∈ S) :
    ∃ b, answerAfter env f history .hasQuorumIntersection = .ok (.bool b) ∧
      (b = false ∧ QuorumIntersection f ↔ QuorumIntersection f ∧ ¬ ∃ Q, IsMinQuorum f Q ∧ Q ⊆ U) ∧
      (b = true ∧ ¬ QuorumIntersection f ↔ (∃ P Q, IsQuorum f P ∧ IsQuorum f Q ∧ ∀ x ∈ P, x ∉ Q) ∧
        (∃ Q, IsMinQuorum f Q ∧ Q ⊆ U) ∧
        ∀ P Q, IsMinQuorum f P → IsMinQuorum f Q → P ⊆ U → Q ⊆ U → ∃ x, x ∈ P ∧ x ∈ Q) := by
  obtain ⟨L', h1, h2⟩ := C28_blocking_first env f
  rw [hL] at h1
  cases h1
  obtain ⟨ans, hans⟩ := C28_no_panic env f history .hasQuorumIntersection hs (by simp)
  obtain ⟨-, -, h3, -⟩ := h2 U hU history hst
  obtain ⟨b, rfl, hb⟩ := h3 ans hans
  refine ⟨b, hans, ?_, ?_⟩
  · rw [← Bool.not_eq_true, hb]
    constructor
    · rintro ⟨h, hqi⟩
      refine ⟨hqi, fun hex => h ⟨hex, fun P Q hP hQ _ _ => hqi.2 P Q hP.prop hQ.prop⟩⟩
    · rintro ⟨hqi, h⟩
      exact ⟨fun hex => h hex.1, hqi⟩
  · rw [hb]
    constructor
    · rintro ⟨h, hqi⟩
      refine ⟨?_, h⟩
      by_contra hno
      push Not at hno
      obtain ⟨⟨Q, hQ, -⟩, -⟩ := h
      exact hqi ⟨⟨Q, hQ.prop⟩, fun P Q hP hQ => hno P Q hP hQ⟩
    · rintro ⟨⟨P, Q, hP, hQ, hd⟩, h⟩
      refine ⟨h, fun hqi => ?_⟩
      obtain ⟨x, hx, hx'⟩ := hqi.2 P Q hP hQ
      exact hd x hx hx'

/-- Concrete case with a wrong verdict: the nodes in reported minimal blocking sets are 0, 1 and 3; the quorum
{0, 2} is not among them, so that {3} seems to be the only minimal quorum. -/
example : StartsWithBlockingSets [.minimalBlockingSets] ∧
    answerAfter (Ref.refEnv 4) fbasWrongVerdict [] .minimalBlockingSets = .ok (.sets [{0, 1, 3}]) ∧
    answerAfter (Ref.refEnv 4) fbasWrongVerdict [.minimalBlockingSets] .minimalQuorums = .ok (.sets [{3}]) ∧
    answerAfter (Ref.refEnv 4) fbasWrongVerdict [.minimalBlockingSets] .topTier = .ok (.set {0, 1, 3}) ∧
    answerAfter (Ref.refEnv 4) fbasWrongVerdict [.minimalBlockingSets, .minimalQuorums] .topTier =
      .ok (.set {3}) ∧
    InTopTier fbasWrongVerdict 2 :=
  ⟨⟨[], [], rfl, by simp⟩, Ref.ok_of (by decide +kernel), Ref.ok_of (by decide +kernel),
    Ref.ok_of (by decide +kernel), Ref.ok_of (by decide +kernel), {0, 2}, by decide +kernel, by decide⟩

/-- Concrete case with right results: every node in the top tier is in a reported blocking set. -/
example : answerAfter (Ref.refEnv 5) fbasFront [] .minimalBlockingSets = .ok (.sets [{0}, {1, 2}, {1, 4}, {2, 4}]) ∧
    answerAfter (Ref.refEnv 5) fbasFront [.minimalBlockingSets] .minimalQuorums =
      .ok (.sets [{0, 1, 2}, {0, 1, 4}, {0, 2, 4}]) :=
  ⟨Ref.ok_of (by decide +kernel), Ref.ok_of (by decide +kernel)⟩

#print axioms C28_blocking_first
#print axioms C27_blocking_first_iff
#print axioms C12_blocking_first_iff

end FA.Props
