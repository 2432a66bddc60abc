import Verif.Lemmas.TidyInput
import Verif.Props.Tidy
import Verif.Props.Separate

/-!
# C94: results in terms of public keys, for inputs with a tidy top tier
-/

namespace FA.Props
open FA Spec Analysis QuorumSet

section
variable {r r' : RawFbas}

theorem nodup_names_of_before (hd : DistinctKeys r) {L : List NodeSet} (h : L.Pairwise Before)
    (hs : ∀ S ∈ L, S ⊆ (Fbas.fromRaw r).allNodes) : (L.map (names (Fbas.fromRaw r))).Nodup := by
  have hn : L.Nodup := h.imp fun {S T} hST => by
    rintro rfl
    unfold Before at hST
    simp at hST
  exact (List.nodup_map_iff_inj_on hn).2 fun a ha b hb he =>
    names_inj (distinct_fromRaw hd) (hs a ha) (hs b hb) he

theorem mem_map_names {L : List NodeSet} {X : NodeSet → Prop} (h : ∀ S, S ∈ L ↔ X S) {f : Fbas}
    {P : Finset PublicKey} : P ∈ L.map (names f) ↔ Named f X P := by
  rw [List.mem_map]
  exact exists_congr fun S => and_congr_left fun _ => h S

theorem exists_loaded_quorum (hd : DistinctKeys r) (hq : ∃ P, RawQuorum r P) :
    ∃ Q, IsQuorum (Fbas.fromRaw r) Q := by
  obtain ⟨P, hP⟩ := hq
  obtain ⟨Q, hQ, -⟩ := (named_quorum_iff hd P).2 hP
  exact ⟨Q, hQ⟩

/-- C94: For an input with different public keys, at least one quorum and a tidy top tier, all answers are
exactly what the input says, in terms of public keys: minimal quorums, both checks of quorum intersection,
minimal blocking sets and the top tier, after any calls. No set is reported twice. -/
theorem C94_results (env : Env) (hd : DistinctKeys r) (hq : ∃ P, RawQuorum r P) (h : RawTidyTopTier r)
    (history : List Call) :
    ∃ (L B : List NodeSet) (T : NodeSet) (b : Bool) (w : Option (List NodeSet)),
      answerAfter env (Fbas.fromRaw r) history .minimalQuorums = .ok (.sets L) ∧
      answerAfter env (Fbas.fromRaw r) history .minimalBlockingSets = .ok (.sets B) ∧
      answerAfter env (Fbas.fromRaw r) history .topTier = .ok (.set T) ∧
      answerAfter env (Fbas.fromRaw r) history .hasQuorumIntersection = .ok (.bool b) ∧
      answerAfter env (Fbas.fromRaw r) history .alternativeCheck = .ok (.verdict b w) ∧
      (∀ P, P ∈ L.map (names (Fbas.fromRaw r)) ↔ RawMinQuorum r P) ∧
      (L.map (names (Fbas.fromRaw r))).Nodup ∧
      (∀ P, P ∈ B.map (names (Fbas.fromRaw r)) ↔ RawMinBlocking r P) ∧
      (B.map (names (Fbas.fromRaw r))).Nodup ∧
      (∀ p, p ∈ names (Fbas.fromRaw r) T ↔ RawInTopTier r p) ∧
      (b = true ↔ RawQuorumIntersection r) := by
  have e := C91_all_exact env _ (wf_fromRaw r) (exists_loaded_quorum hd hq) (h.loaded hd) history
  obtain ⟨L, a1, a2, a3⟩ := e.minimalQuorums
  obtain ⟨B, b1, b2, b3⟩ := e.minimalBlockingSets
  obtain ⟨T, t1, t2⟩ := e.topTier
  obtain ⟨b, c1, c2⟩ := e.hasQuorumIntersection
  obtain ⟨b', w, d1, d2⟩ := e.alternativeCheck
  have hb : b' = b := Bool.eq_iff_iff.2 (d2.trans c2.symm)
  subst hb
  refine ⟨L, B, T, b', w, a1, b1, t1, c1, d1, fun P => ?_, nodup_names_of_before hd a3 ?_, fun P => ?_,
    nodup_names_of_before hd b3 ?_, fun p => ?_, c2.trans (rawQuorumIntersection_iff hd)⟩
  · rw [mem_map_names a2, named_rawMinQuorum hd]
  · exact fun S hS => ((a2 S).1 hS).prop.subset_all
  · rw [mem_map_names b2, named_rawMinBlocking hd]
  · exact fun S hS x hx => Finset.mem_range.2 (isMinBlocking_lt ((b2 S).1 hS) x hx)
  · rw [← rawInTopTier_iff hd]
    unfold names
    rw [Finset.mem_image]
    exact exists_congr fun x => and_congr_left fun _ => t2 x

/-- C94 for minimal splitting sets, if inner quorum sets of nodes in the top tier require a majority and
offer a choice (or if quorums do not intersect; then exactly the empty set is reported). -/
theorem C94_splitting (env : Env) (hd : DistinctKeys r) (hq : ∃ P, RawQuorum r P) (h : RawTidyTopTier r)
    (hm : RawMajoritiesInside r ∨ ¬ RawQuorumIntersection r) (history : List Call) :
    ∃ L : List NodeSet,
      answerAfter env (Fbas.fromRaw r) history .minimalSplittingSets = .ok (.sets L) ∧
      (∀ P, P ∈ L.map (names (Fbas.fromRaw r)) ↔ RawMinSplitting r P) ∧
      (L.map (names (Fbas.fromRaw r))).Nodup := by
  have e := C91_all_exact env _ (wf_fromRaw r) (exists_loaded_quorum hd hq) (h.loaded hd) history
  obtain ⟨L, a1, a2, a3⟩ := e.minimalSplittingSets
    (hm.imp (·.loaded hd h) (mt (rawQuorumIntersection_iff hd).1))
  refine ⟨L, a1, fun P => ?_, nodup_names_of_before hd a3 fun S hS => ?_⟩
  · rw [mem_map_names a2, named_rawMinSplitting hd]
  · intro x hx
    have hs := (a2 S).1 hS
    obtain ⟨Q₁, Q₂, h1, h2, hne, hsub⟩ := hs.prop
    have : S ⊆ Q₁ ∩ Q₂ := hs.2 ⟨Q₁, Q₂, h1, h2, hne, Finset.Subset.refl _⟩ hsub
    exact h1.prop.subset_all (Finset.mem_inter.1 (this hx)).1

/-- C94: If an input consists of two networks whose nodes do not list each other, each with quorums and a
tidy top tier, then the minimal blocking sets reported for the whole input are exactly the unions of one
for each network (as in `C87_blocking_partial`; nothing needs to be known about the whole input). -/
theorem C94_separate (env env₁ env₂ : Env) (hd : DistinctKeys (r ++ r')) (hu : Unrelated r r')
    (hq : ∃ P, RawQuorum r P) (hq' : ∃ P, RawQuorum r' P) (h : RawTidyTopTier r) (h' : RawTidyTopTier r')
    (history history₁ history₂ : List Call) :
    ∃ L L₁ L₂,
      answerAfter env (Fbas.fromRaw (r ++ r')) history .minimalBlockingSets = .ok (.sets L) ∧
      answerAfter env₁ (Fbas.fromRaw r) history₁ .minimalBlockingSets = .ok (.sets L₁) ∧
      answerAfter env₂ (Fbas.fromRaw r') history₂ .minimalBlockingSets = .ok (.sets L₂) ∧
      (L.map (names (Fbas.fromRaw (r ++ r')))).Perm
        (L₁.flatMap (fun A => L₂.map (fun A' =>
          names (Fbas.fromRaw r) A ∪ names (Fbas.fromRaw r') A'))) ∧
      L.length = L₁.length * L₂.length ∧
      (L.map Finset.card).Perm
        (L₁.flatMap (fun A => L₂.map (fun A' => A.card + A'.card))) :=
  C87_blocking_partial env env₁ env₂ r r' hd hu hq hq'
    (C91_well_shaped env (wf_fromRaw _) ((h.append hd hu h').loaded hd))
    (C91_well_shaped env₁ (wf_fromRaw _) (h.loaded (distinct_left hd)))
    (C91_well_shaped env₂ (wf_fromRaw _) (h'.loaded (distinct_right hd))) history history₁ history₂

end

/-! ## Concrete case

Three nodes, two of which are needed, and a node ("w") with a quorum set that lists a node twice, an
unknown node, and an inner quorum set that cannot be satisfied. -/

def rawWatched (a b c : PublicKey) : RawFbas :=
  rawTwoOfThree a b c ++ [⟨"w", ⟨2, [a, a, "unknown"], [⟨3, [b], []⟩]⟩, none, none⟩]

/-- Minimal quorums of a concrete input, computed by the model of `find_minimal_quorums`. -/
theorem rawMinQuorum_computed {N : ℕ} {r : RawFbas} (hd : DistinctKeys r) {L : List NodeSet}
    (hL : findMinimalQuorums (Ref.refEnv N) (Fbas.fromRaw r) = .ok L) (P : Finset PublicKey) :
    RawMinQuorum r P ↔ P ∈ L.map (names (Fbas.fromRaw r)) := by
  obtain ⟨L', h1, h2⟩ := C09_minimal_quorums (Ref.refEnv N) _ (wf_fromRaw r)
  rw [hL] at h1
  obtain rfl := Except.ok.inj h1
  rw [mem_map_names h2, named_rawMinQuorum hd]

theorem rawDupFree_flat {t : ℕ} {vs : List PublicKey} (h : vs.Nodup) : RawDupFree ⟨t, vs, []⟩ :=
  .intro _ h (fun _ h => absurd h List.not_mem_nil) List.Pairwise.nil (fun _ h => absurd h List.not_mem_nil)

theorem rawSane_flat {t : ℕ} {vs : List PublicKey} (h : 1 ≤ t) (h' : t ≤ vs.length) :
    RawSane ⟨t, vs, []⟩ :=
  .intro _ h h' (fun _ h => absurd h List.not_mem_nil)

theorem mentions_flat {t : ℕ} {vs : List PublicKey} {p : PublicKey} (h : RawMentions ⟨t, vs, []⟩ p) :
    p ∈ vs := by
  cases h with
  | validator h => exact h
  | inner h _ => exact absurd h List.not_mem_nil

theorem rawWatched_topTier {p : PublicKey} :
    RawInTopTier (rawWatched "a" "b" "c") p ↔ p ∈ ["a", "b", "c"] := by
  have hd : DistinctKeys (rawWatched "a" "b" "c") := by unfold DistinctKeys; decide
  have hL : findMinimalQuorums (Ref.refEnv 4) (Fbas.fromRaw (rawWatched "a" "b" "c")) =
      .ok [{0, 1}, {0, 2}, {1, 2}] := Ref.ok_of (by decide +kernel)
  have e : ([{0, 1}, {0, 2}, {1, 2}] : List NodeSet).map (names (Fbas.fromRaw (rawWatched "a" "b" "c"))) =
      [{"a", "b"}, {"a", "c"}, {"b", "c"}] := by decide +kernel
  unfold RawInTopTier
  simp only [rawMinQuorum_computed hd hL, e, List.mem_cons, List.not_mem_nil, or_false]
  constructor
  · rintro ⟨P, rfl | rfl | rfl, hp⟩ <;> rw [Finset.mem_insert, Finset.mem_singleton] at hp
    · exact hp.imp id .inl
    · exact hp.imp id .inr
    · exact .inr hp
  · rintro (rfl | rfl | rfl)
    · exact ⟨_, .inl rfl, Finset.mem_insert_self _ _⟩
    · exact ⟨_, .inr (.inr rfl), Finset.mem_insert_self _ _⟩
    · exact ⟨_, .inr (.inl rfl), Finset.mem_insert_of_mem (Finset.mem_singleton_self _)⟩

theorem rawWatched_tidy : RawTidyTopTier (rawWatched "a" "b" "c") := by
  intro n hn ht
  rw [rawWatched_topTier] at ht
  rcases List.mem_append.1 hn with hn | hn
  · obtain ⟨p, hp, rfl⟩ := List.mem_map.1 hn
    refine ⟨rawDupFree_flat (by decide), rawSane_flat (by decide) (by decide), fun p hp => ?_⟩
    exact rawWatched_topTier.2 (mentions_flat hp)
  · rw [List.mem_singleton] at hn
    subst hn
    exact absurd ht (by decide)

/-- The hypotheses of `C94_results` and `C94_splitting` for the concrete case, and what is reported. -/
example : DistinctKeys (rawWatched "a" "b" "c") ∧ (∃ P, RawQuorum (rawWatched "a" "b" "c") P) ∧
    RawTidyTopTier (rawWatched "a" "b" "c") ∧ RawMajoritiesInside (rawWatched "a" "b" "c") ∧
    RawMinQuorum (rawWatched "a" "b" "c") {"a", "c"} ∧
    answerAfter (Ref.refEnv 4) (Fbas.fromRaw (rawWatched "a" "b" "c")) [] .minimalSplittingSets =
      .ok (.sets [{0}, {1}, {2}]) := by
  have hd : DistinctKeys (rawWatched "a" "b" "c") := by unfold DistinctKeys; decide
  obtain ⟨P, hP, -⟩ := (rawWatched_topTier (p := "a")).2 (by decide)
  have hL : findMinimalQuorums (Ref.refEnv 4) (Fbas.fromRaw (rawWatched "a" "b" "c")) =
      .ok [{0, 1}, {0, 2}, {1, 2}] := Ref.ok_of (by decide +kernel)
  refine ⟨hd, ⟨P, hP.prop⟩, rawWatched_tidy, ?_, ?_, Ref.ok_of (by decide +kernel)⟩
  · intro n hn ht q hq
    rw [rawWatched_topTier] at ht
    rcases List.mem_append.1 hn with hn | hn
    · obtain ⟨p, hp, rfl⟩ := List.mem_map.1 hn
      exact absurd hq List.not_mem_nil
    · rw [List.mem_singleton] at hn
      subst hn
      exact absurd ht (by decide)
  · rw [rawMinQuorum_computed hd hL]
    decide +kernel

theorem rawTwoOfThree_topTier {p : PublicKey} :
    RawInTopTier (rawTwoOfThree "d" "e" "f") p ↔ p ∈ ["d", "e", "f"] := by
  have hd : DistinctKeys (rawTwoOfThree "d" "e" "f") := by unfold DistinctKeys; decide
  have hL : findMinimalQuorums (Ref.refEnv 3) (Fbas.fromRaw (rawTwoOfThree "d" "e" "f")) =
      .ok [{0, 1}, {0, 2}, {1, 2}] := Ref.ok_of (by decide +kernel)
  have e : ([{0, 1}, {0, 2}, {1, 2}] : List NodeSet).map
      (names (Fbas.fromRaw (rawTwoOfThree "d" "e" "f"))) =
      [{"d", "e"}, {"d", "f"}, {"e", "f"}] := by decide +kernel
  unfold RawInTopTier
  simp only [rawMinQuorum_computed hd hL, e, List.mem_cons, List.not_mem_nil, or_false]
  constructor
  · rintro ⟨P, rfl | rfl | rfl, hp⟩ <;> rw [Finset.mem_insert, Finset.mem_singleton] at hp
    · exact hp.imp id .inl
    · exact hp.imp id .inr
    · exact .inr hp
  · rintro (rfl | rfl | rfl)
    · exact ⟨_, .inl rfl, Finset.mem_insert_self _ _⟩
    · exact ⟨_, .inr (.inr rfl), Finset.mem_insert_self _ _⟩
    · exact ⟨_, .inr (.inl rfl), Finset.mem_insert_of_mem (Finset.mem_singleton_self _)⟩

/-- The hypotheses of `C94_separate` for the concrete case and three other nodes. Each network has three
minimal blocking sets, both together have nine. -/
example : DistinctKeys (rawWatched "a" "b" "c" ++ rawTwoOfThree "d" "e" "f") ∧
    Unrelated (rawWatched "a" "b" "c") (rawTwoOfThree "d" "e" "f") ∧
    (∃ P, RawQuorum (rawTwoOfThree "d" "e" "f") P) ∧ RawTidyTopTier (rawTwoOfThree "d" "e" "f") ∧
    answerAfter (Ref.refEnv 7) (Fbas.fromRaw (rawWatched "a" "b" "c" ++ rawTwoOfThree "d" "e" "f")) []
      .minimalBlockingSets =
      .ok (.sets [{0, 1, 4, 5}, {0, 1, 4, 6}, {0, 1, 5, 6}, {0, 2, 4, 5}, {0, 2, 4, 6}, {0, 2, 5, 6},
        {1, 2, 4, 5}, {1, 2, 4, 6}, {1, 2, 5, 6}]) := by
  obtain ⟨P, hP, -⟩ := (rawTwoOfThree_topTier (p := "d")).2 (by decide)
  refine ⟨by unfold DistinctKeys; decide, ?_, ⟨P, hP.prop⟩, ?_, Ref.ok_of (by decide +kernel)⟩
  · intro n hn m hm
    rcases List.mem_append.1 hn with hn | hn
    · exact unrelated_three n hn m hm
    · rw [List.mem_singleton] at hn
      subst hn
      obtain ⟨p, hp, rfl⟩ := List.mem_map.1 hm
      refine ⟨fun h => ?_, fun h => absurd (mentions_flat h) (by decide)⟩
      cases h with
      | validator h =>
        revert h
        exact (by decide : ∀ p ∈ ["d", "e", "f"], p ∉ ["a", "a", "unknown"]) p hp
      | inner hq h =>
        rw [List.mem_singleton] at hq
        subst hq
        exact (by decide : ∀ p ∈ ["d", "e", "f"], p ∉ ["b"]) p hp (mentions_flat h)
  · intro n hn ht
    obtain ⟨p, hp, rfl⟩ := List.mem_map.1 hn
    exact ⟨rawDupFree_flat (by decide), rawSane_flat (by decide) (by decide),
      fun p hp => rawTwoOfThree_topTier.2 (mentions_flat hp)⟩

#print axioms C94_results
#print axioms C94_splitting
#print axioms C94_separate

end FA.Props
