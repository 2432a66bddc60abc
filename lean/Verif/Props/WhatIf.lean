import Verif.Lemmas.WhatIf
import Verif.Props.FrontEndSound
import Verif.Props.Results
import Verif.Ref.Decide

/-!
# C80: what-if analysis compared with a new analysis without the failed nodes
-/

namespace FA.Props
open FA Spec Analysis

/-- C80: removing failed nodes from the input leaves exactly the quorums without failed nodes. -/
theorem C80_quorums (r : RawFbas) (hd : DistinctKeys r) (failed : List PublicKey)
    (P : Finset PublicKey) :
    Named (Fbas.fromRaw (withoutFailed r failed)) (IsQuorum (Fbas.fromRaw (withoutFailed r failed))) P ↔
      RawQuorum r P ∧ NoneFailed failed P :=
  (named_quorum_iff (withoutFailed_distinct hd) P).trans (rawQuorum_withoutFailed P)

/-- C80 for minimal quorums: a new analysis without the failed nodes reports exactly those minimal
quorums that were reported before and contain no failed node. -/
theorem C80_minimal_quorums (env env' : Env) (r : RawFbas) (hd : DistinctKeys r)
    (failed : List PublicKey) :
    ∃ L L', answerAfter env (Fbas.fromRaw r) [] .minimalQuorums = .ok (.sets L) ∧
      answerAfter env' (Fbas.fromRaw (withoutFailed r failed)) [] .minimalQuorums = .ok (.sets L') ∧
      ∀ P, P ∈ L'.map (names (Fbas.fromRaw (withoutFailed r failed))) ↔
        P ∈ L.map (names (Fbas.fromRaw r)) ∧ NoneFailed failed P := by
  have hb : ¬ StartsWithBlockingSets [] := by rintro ⟨pre, post, h, _⟩; simp at h
  obtain ⟨L, -, h1, -, -, h2⟩ := C27_minimal_quorums_as_sets_partial env (Fbas.fromRaw r)
    (wf_fromRaw r) [] (.inl (by simp)) hb
  obtain ⟨L', -, h3, -, -, h4⟩ := C27_minimal_quorums_as_sets_partial env'
    (Fbas.fromRaw (withoutFailed r failed)) (wf_fromRaw _) [] (.inl (by simp)) hb
  refine ⟨L, L', h1, h3, fun P => ?_⟩
  have := named_minQuorum_withoutFailed (failed := failed) hd P
  simp only [Named] at this
  simp only [List.mem_map, h2, h4]
  exact this

/-- C80 for quorum intersection: failures do not end it, unless no quorum is left. -/
theorem C80_intersection (env env' : Env) (r : RawFbas) (hd : DistinctKeys r)
    (failed : List PublicKey)
    (h : answerAfter env (Fbas.fromRaw r) [] .hasQuorumIntersection = .ok (.bool true)) :
    answerAfter env' (Fbas.fromRaw (withoutFailed r failed)) [] .hasQuorumIntersection =
      .ok (.bool true) ↔ ∃ P, RawQuorum r P ∧ NoneFailed failed P := by
  obtain ⟨b, h1, h2⟩ := C12_fresh env (Fbas.fromRaw r) (wf_fromRaw r)
  rw [h1] at h
  cases h
  have hqi := h2.1 rfl
  have hd' := withoutFailed_distinct (failed := failed) hd
  obtain ⟨b, h3, h4⟩ := C12_fresh env' (Fbas.fromRaw (withoutFailed r failed)) (wf_fromRaw _)
  rw [h3]
  have hb : (Except.ok (Answer.bool b) : Except Panic Answer) = .ok (.bool true) ↔ b = true := by
    constructor
    · intro h; cases h; rfl
    · rintro rfl; rfl
  rw [hb, h4]
  constructor
  · rintro ⟨⟨Q, hQ⟩, -⟩
    exact ⟨_, (C80_quorums r hd failed _).1 ⟨Q, hQ, rfl⟩⟩
  · rintro ⟨P, hP⟩
    obtain ⟨Q, hQ, -⟩ := (C80_quorums r hd failed _).2 hP
    rw [named_quorumIntersection (distinct_fromRaw hd)] at hqi
    rw [named_quorumIntersection (distinct_fromRaw hd')]
    obtain ⟨M, -, hM⟩ := exists_minimal_le_of_wellFoundedLT
      (P := IsQuorum (Fbas.fromRaw (withoutFailed r failed))) Q hQ
    exact ⟨⟨_, M, hM, rfl⟩, fun P P' hP hP' => hqi.2 P P'
      ((named_minQuorum_withoutFailed hd P).1 hP).1 ((named_minQuorum_withoutFailed hd P').1 hP').1⟩

/-- C80 for blocking sets: removing the failed nodes from the reported minimal blocking sets
(`without_nodes_pretty` and `minimal_sets`) gives the minimal blocking sets that a new analysis reports
for the input without the failed nodes. Both objects may have been used before.

Missing for the full statement: FBASs that are not well-shaped, and failures after which no quorum is
left. For both the claim is false, see `C80_counterexample`. -/
theorem C80_blocking_partial (env env' : Env) (r : RawFbas) (hd : DistinctKeys r)
    (failed : List PublicKey) (hw : WellShaped env (Fbas.fromRaw r))
    (hw' : WellShaped env' (Fbas.fromRaw (withoutFailed r failed)))
    (hq : ∃ P, RawQuorum r P ∧ NoneFailed failed P) (history history' : List Call) :
    ∃ L L', answerAfter env (Fbas.fromRaw r) history .minimalBlockingSets = .ok (.sets L) ∧
      answerAfter env' (Fbas.fromRaw (withoutFailed r failed)) history' .minimalBlockingSets =
        .ok (.sets L') ∧
      ∀ result : SetVecResult, result.unwrap = .ok L →
        ∃ result' l, result.withoutNodesPretty failed (Fbas.fromRaw r) none = .ok result' ∧
          result'.minimalSets.unwrap = .ok l ∧
          (l.map (names (Fbas.fromRaw r))).Perm
            (L'.map (names (Fbas.fromRaw (withoutFailed r failed)))) := by
  have hd' := withoutFailed_distinct (failed := failed) hd
  obtain ⟨P, hP⟩ := hq
  obtain ⟨Q', hQ', -⟩ := (C80_quorums r hd failed _).2 hP
  obtain ⟨Q, hQ, -⟩ := (named_quorum_iff hd P).2 hP.1
  obtain ⟨L, h1, h2, -⟩ := C29_minimal_blocking_sets_partial env _ (wf_fromRaw r) hw ⟨Q, hQ⟩ history
  obtain ⟨L', h3, h4, h5⟩ := C29_minimal_blocking_sets_partial env' _ (wf_fromRaw _) hw' ⟨Q', hQ'⟩
    history'
  refine ⟨L, L', h1, h3, fun result hr => ?_⟩
  obtain ⟨nodes, hn, hn'⟩ := C31_public_keys result failed (Fbas.fromRaw r)
  obtain ⟨result', l, h6, h7, h8, h9⟩ := C31_blocking (Fbas.fromRaw r) result L hr h2 nodes
  refine ⟨result', l, by rw [hn, h6], h7, ?_⟩
  have irr {a : NodeSet} : ¬ Before a a := by
    rintro (h | ⟨-, x, h, h', -⟩)
    · omega
    · exact h' h
  have nd {l : List NodeSet} (h : l.Pairwise Before) : l.Nodup :=
    List.Pairwise.imp (fun {a b} (h : Before a b) (he : a = b) => irr (he ▸ h)) h
  have sub : ∀ B ∈ l, B ⊆ (Fbas.fromRaw r).allNodes := by
    intro B hB
    obtain ⟨⟨hb1, hb2⟩, hb3⟩ := (h8 B).1 hB
    refine (hb3 (y := B ∩ (Fbas.fromRaw r).allNodes) ⟨hb1.mono_left Finset.inter_subset_left, ?_⟩
      Finset.inter_subset_left).trans Finset.inter_subset_right
    intro Q hQ
    obtain ⟨x, hx1, hx2⟩ := hb2 Q hQ
    refine ⟨x, hx1, ?_⟩
    rcases Finset.mem_union.1 hx2 with h | h
    · exact Finset.mem_union_left _ (Finset.mem_inter.2 ⟨h, hQ.subset_all hx1⟩)
    · exact Finset.mem_union_right _ h
  refine (List.perm_ext_iff_of_nodup ?_ ?_).2 fun P => ?_
  · refine (List.nodup_map_iff_inj_on (nd h9)).2 fun a ha b hb he => ?_
    exact names_inj (distinct_fromRaw hd) (sub a ha) (sub b hb) he
  · refine (List.nodup_map_iff_inj_on (nd h5)).2 fun a ha b hb he => ?_
    refine names_inj (distinct_fromRaw hd') ?_ ?_ he
    · exact fun x hx => Finset.mem_range.2 (isMinBlocking_lt ((h4 a).1 ha) x hx)
    · exact fun x hx => Finset.mem_range.2 (isMinBlocking_lt ((h4 b).1 hb) x hx)
  · have := named_minBlocking_withoutFailed hd hn' P
    simp only [Named] at this
    simp only [List.mem_map, h8, h4]
    exact this

/-- Four nodes; `a` and `b` form an organization that counts only as a whole. -/
def rawOrg : RawFbas :=
  ["a", "b", "c", "d"].map (fun p => ⟨p, ⟨2, ["c", "d"], [⟨2, ["a", "b"], []⟩]⟩, none, none⟩)

/-- C80 is false in general: after node `a` failed, nodes `c` and `d` are minimal blocking sets, as the
what-if analysis finds, but a new analysis without `a` reports only `{c, d}`. And if no quorum is left,
then the what-if analysis says that nothing more has to fail (the empty set) and a new analysis reports
no blocking sets. -/
theorem C80_counterexample :
    DistinctKeys rawOrg ∧
    answerAfter (Ref.refEnv 4) (Fbas.fromRaw rawOrg) [] .minimalBlockingSets =
      .ok (.sets [{0, 2}, {0, 3}, {1, 2}, {1, 3}, {2, 3}]) ∧
    (((SetVecResult.new [{0, 2}, {0, 3}, {1, 2}, {1, 3}, {2, 3}] none).withoutNodesPretty ["a"]
      (Fbas.fromRaw rawOrg) none).map (fun r => r.minimalSets.unwrap.toOption) =
        .ok (some [{2}, {3}])) ∧
    answerAfter (Ref.refEnv 3) (Fbas.fromRaw (withoutFailed rawOrg ["a"])) [] .minimalBlockingSets =
      .ok (.sets [{1, 2}]) ∧
    (((SetVecResult.new [{0, 2}, {0, 3}, {1, 2}, {1, 3}, {2, 3}] none).withoutNodesPretty ["a", "c"]
      (Fbas.fromRaw rawOrg) none).map (fun r => r.minimalSets.unwrap.toOption) =
        .ok (some [∅])) ∧
    answerAfter (Ref.refEnv 2) (Fbas.fromRaw (withoutFailed rawOrg ["a", "c"])) []
      .minimalBlockingSets = .ok (.sets []) :=
  ⟨by unfold DistinctKeys; decide +kernel, Ref.ok_of (by decide +kernel), Ref.ok_of (by decide +kernel),
    Ref.ok_of (by decide +kernel), Ref.ok_of (by decide +kernel), Ref.ok_of (by decide +kernel)⟩

/-- Four nodes, three of which are needed. -/
def rawFour : RawFbas :=
  ["a", "b", "c", "d"].map (fun p => ⟨p, ⟨3, ["a", "b", "c", "d"], []⟩, none, none⟩)

/-- Concrete case: the hypotheses hold, and one more failure is enough after `b` failed. -/
example : DistinctKeys rawFour ∧ WellShaped (Ref.refEnv 4) (Fbas.fromRaw rawFour) ∧
    WellShaped (Ref.refEnv 3) (Fbas.fromRaw (withoutFailed rawFour ["b"])) ∧
    (∃ P, RawQuorum rawFour P ∧ NoneFailed ["b"] P) ∧
    answerAfter (Ref.refEnv 4) (Fbas.fromRaw rawFour) [] .hasQuorumIntersection = .ok (.bool true) ∧
    answerAfter (Ref.refEnv 4) (Fbas.fromRaw rawFour) [.topTier] .minimalBlockingSets =
      .ok (.sets [{0, 1}, {0, 2}, {0, 3}, {1, 2}, {1, 3}, {2, 3}]) ∧
    answerAfter (Ref.refEnv 3) (Fbas.fromRaw (withoutFailed rawFour ["b"])) [] .minimalBlockingSets =
      .ok (.sets [{0}, {1}, {2}]) := by
  have hd : DistinctKeys rawFour := by unfold DistinctKeys; decide +kernel
  refine ⟨hd, wellShaped_of_flat _ _ (flat_of_list (by decide +kernel)),
    wellShaped_of_flat _ _ (flat_of_list (by decide +kernel)), ?_, Ref.ok_of (by decide +kernel),
    Ref.ok_of (by decide +kernel), Ref.ok_of (by decide +kernel)⟩
  exact ⟨_, (C80_quorums rawFour hd ["b"] _).1 ⟨{0, 1, 2}, by decide +kernel, rfl⟩⟩

#print axioms C80_quorums
#print axioms C80_minimal_quorums
#print axioms C80_intersection
#print axioms C80_blocking_partial
#print axioms C80_counterexample

end FA.Props
