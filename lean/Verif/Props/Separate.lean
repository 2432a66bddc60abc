import Verif.Lemmas.Separate
import Verif.Props.FrontEndSound
import Verif.Ref.Decide

/-!
# C87: networks that do not depend on each other

Two networks whose nodes do not list each other, in one input file. (The analyses put the results for
strongly connected components together in different ways; the blocking sets and splitting sets mix the
components.)
-/

namespace FA.Props
open FA Spec Analysis

/-- C87: the quorums of two unrelated networks are the quorums of each of them, and their unions. -/
theorem C87_quorums (r r' : RawFbas) (hd : DistinctKeys (r ++ r')) (hu : Unrelated r r')
    (P : Finset PublicKey) :
    Named (Fbas.fromRaw (r ++ r')) (IsQuorum (Fbas.fromRaw (r ++ r'))) P ↔
      ∃ A A', (RawQuorum r A ∨ A = ∅) ∧ (RawQuorum r' A' ∨ A' = ∅) ∧ P.Nonempty ∧ P = A ∪ A' := by
  rw [named_quorum_iff hd]
  constructor
  · intro h
    refine ⟨P ∩ keys r, P ∩ keys r', ?_, ?_, h.1, ?_⟩
    · rcases Finset.eq_empty_or_nonempty (P ∩ keys r) with h1 | h1
      · exact .inr h1
      · exact .inl (rawQuorum_inter_left hd hu h h1)
    · rcases Finset.eq_empty_or_nonempty (P ∩ keys r') with h1 | h1
      · exact .inr h1
      · exact .inl (rawQuorum_inter_right hd hu h h1)
    · rw [← Finset.inter_union_distrib_left, eq_comm, Finset.inter_eq_left]
      refine h.subset_keys.trans fun p hp => ?_
      obtain ⟨n, hn, rfl⟩ := mem_keys.1 hp
      rw [Finset.mem_union, mem_keys, mem_keys]
      exact (List.mem_append.1 hn).imp (fun h => ⟨n, h, rfl⟩) (fun h => ⟨n, h, rfl⟩)
  · rintro ⟨A, A', h1, h2, h3, rfl⟩
    exact rawQuorum_union h1 h2 h3

theorem distinct_left {r r' : RawFbas} (hd : DistinctKeys (r ++ r')) : DistinctKeys r := by
  unfold DistinctKeys at hd ⊢
  rw [List.map_append] at hd
  exact (List.nodup_append.1 hd).1

theorem distinct_right {r r' : RawFbas} (hd : DistinctKeys (r ++ r')) : DistinctKeys r' :=
  distinct_left (distinct_comm hd)

/-- C87: the minimal quorums reported for two unrelated networks in one input are those reported for each
of them. The top tier is the union of the top tiers. There is quorum intersection iff there is in one
of them and the other one has no quorums; otherwise, unless neither has quorums, the empty set is the only
reported splitting set. -/
theorem C87_reports (env env₁ env₂ : Env) (r r' : RawFbas) (hd : DistinctKeys (r ++ r'))
    (hu : Unrelated r r') :
    ∃ L L₁ L₂ T T₁ T₂ b b₁ b₂ S,
      answerAfter env (Fbas.fromRaw (r ++ r')) [] .minimalQuorums = .ok (.sets L) ∧
      answerAfter env₁ (Fbas.fromRaw r) [] .minimalQuorums = .ok (.sets L₁) ∧
      answerAfter env₂ (Fbas.fromRaw r') [] .minimalQuorums = .ok (.sets L₂) ∧
      answerAfter env (Fbas.fromRaw (r ++ r')) [] .topTier = .ok (.set T) ∧
      answerAfter env₁ (Fbas.fromRaw r) [] .topTier = .ok (.set T₁) ∧
      answerAfter env₂ (Fbas.fromRaw r') [] .topTier = .ok (.set T₂) ∧
      answerAfter env (Fbas.fromRaw (r ++ r')) [] .hasQuorumIntersection = .ok (.bool b) ∧
      answerAfter env₁ (Fbas.fromRaw r) [] .hasQuorumIntersection = .ok (.bool b₁) ∧
      answerAfter env₂ (Fbas.fromRaw r') [] .hasQuorumIntersection = .ok (.bool b₂) ∧
      answerAfter env (Fbas.fromRaw (r ++ r')) [] .minimalSplittingSets = .ok (.sets S) ∧
      (∀ P, P ∈ L.map (names (Fbas.fromRaw (r ++ r'))) ↔
        P ∈ L₁.map (names (Fbas.fromRaw r)) ∨ P ∈ L₂.map (names (Fbas.fromRaw r'))) ∧
      names (Fbas.fromRaw (r ++ r')) T = names (Fbas.fromRaw r) T₁ ∪ names (Fbas.fromRaw r') T₂ ∧
      Disjoint (names (Fbas.fromRaw r) T₁) (names (Fbas.fromRaw r') T₂) ∧
      (b = true ↔ (b₁ = true ∧ L₂ = []) ∨ (L₁ = [] ∧ b₂ = true)) ∧
      (L₁ ≠ [] → L₂ ≠ [] → S = [∅]) := by
  have hb : ¬ StartsWithBlockingSets [] := by rintro ⟨pre, post, h, _⟩; simp at h
  have hd₁ := distinct_left hd
  have hd₂ := distinct_right hd
  obtain ⟨L, -, q, -, -, hL⟩ := C27_minimal_quorums_as_sets_partial env (Fbas.fromRaw (r ++ r'))
    (wf_fromRaw _) [] (.inl (by simp)) hb
  obtain ⟨L₁, -, q₁, -, -, hL₁⟩ := C27_minimal_quorums_as_sets_partial env₁ (Fbas.fromRaw r)
    (wf_fromRaw _) [] (.inl (by simp)) hb
  obtain ⟨L₂, -, q₂, -, -, hL₂⟩ := C27_minimal_quorums_as_sets_partial env₂ (Fbas.fromRaw r')
    (wf_fromRaw _) [] (.inl (by simp)) hb
  obtain ⟨T, t, hT⟩ := C18_top_tier env (Fbas.fromRaw (r ++ r')) (wf_fromRaw _) [] (.inl (by simp)) hb
  obtain ⟨T₁, t₁, hT₁⟩ := C18_top_tier env₁ (Fbas.fromRaw r) (wf_fromRaw _) [] (.inl (by simp)) hb
  obtain ⟨T₂, t₂, hT₂⟩ := C18_top_tier env₂ (Fbas.fromRaw r') (wf_fromRaw _) [] (.inl (by simp)) hb
  obtain ⟨b, i, hi⟩ := C12_fresh env (Fbas.fromRaw (r ++ r')) (wf_fromRaw _)
  obtain ⟨b₁, i₁, hi₁⟩ := C12_fresh env₁ (Fbas.fromRaw r) (wf_fromRaw _)
  obtain ⟨b₂, i₂, hi₂⟩ := C12_fresh env₂ (Fbas.fromRaw r') (wf_fromRaw _)
  obtain ⟨S, s, hS, -⟩ := C21_fresh env (Fbas.fromRaw (r ++ r')) (wf_fromRaw _)
  have hmap : ∀ (r : RawFbas) (hd : DistinctKeys r) (L : List NodeSet)
      (hL : ∀ S, S ∈ L ↔ IsMinQuorum (Fbas.fromRaw r) S) (P : Finset PublicKey),
      P ∈ L.map (names (Fbas.fromRaw r)) ↔ RawMinQuorum r P := by
    intro r hd L hL P
    rw [← named_rawMinQuorum hd, List.mem_map]
    exact exists_congr fun S => and_congr_left fun _ => hL S
  have hnil : ∀ (r : RawFbas) (hd : DistinctKeys r) (L : List NodeSet)
      (hL : ∀ S, S ∈ L ↔ IsMinQuorum (Fbas.fromRaw r) S), L = [] ↔ ¬ ∃ P, RawMinQuorum r P := by
    intro r hd L hL
    constructor
    · rintro rfl ⟨P, hP⟩
      have := (hmap r hd [] hL P).2 hP
      simp at this
    · intro h
      refine List.eq_nil_iff_forall_not_mem.2 fun S hS => h ⟨names (Fbas.fromRaw r) S, ?_⟩
      exact (hmap r hd L hL _).1 (List.mem_map_of_mem hS)
  have htop : ∀ (r : RawFbas) (hd : DistinctKeys r) (T : NodeSet)
      (hT : ∀ x, x ∈ T ↔ InTopTier (Fbas.fromRaw r) x) (p : PublicKey),
      p ∈ names (Fbas.fromRaw r) T ↔ ∃ P, RawMinQuorum r P ∧ p ∈ P := by
    intro r hd T hT p
    have := named_topTier (f := Fbas.fromRaw r) (p := p)
    simp only [named_rawMinQuorum hd] at this
    rw [← this]
    unfold names
    rw [Finset.mem_image]
    exact exists_congr fun x => and_congr_left fun _ => hT x
  have hqi : ∀ (r : RawFbas) (hd : DistinctKeys r), QuorumIntersection (Fbas.fromRaw r) ↔
      (∃ P, RawMinQuorum r P) ∧ ∀ P P', RawMinQuorum r P → RawMinQuorum r P' → ∃ p, p ∈ P ∧ p ∈ P' := by
    intro r hd
    rw [named_quorumIntersection (distinct_fromRaw hd)]
    simp only [named_rawMinQuorum hd]
  have hdis : ∀ P P', RawMinQuorum r P → RawMinQuorum r' P' → ¬ ∃ p, p ∈ P ∧ p ∈ P' := by
    rintro P P' h1 h2 ⟨p, h3, h4⟩
    exact Finset.disjoint_left.1 (keys_disjoint hd) (h1.1.subset_keys h3) (h2.1.subset_keys h4)
  have hnot : L₁ ≠ [] → L₂ ≠ [] → ¬ QuorumIntersection (Fbas.fromRaw (r ++ r')) := by
    intro n1 n2 h
    rw [Ne, hnil r hd₁ L₁ hL₁, not_not] at n1
    rw [Ne, hnil r' hd₂ L₂ hL₂, not_not] at n2
    obtain ⟨P, hP⟩ := n1
    obtain ⟨P', hP'⟩ := n2
    rw [hqi _ hd] at h
    simp only [rawMinQuorum_append hd hu] at h
    exact hdis P P' hP hP' (h.2 P P' (.inl hP) (.inr hP'))
  refine ⟨L, L₁, L₂, T, T₁, T₂, b, b₁, b₂, S, q, q₁, q₂, t, t₁, t₂, i, i₁, i₂, s, fun P => ?_, ?_, ?_,
    ?_, fun h1 h2 => hS.2 (hnot h1 h2)⟩
  · rw [hmap _ hd L hL, hmap _ hd₁ L₁ hL₁, hmap _ hd₂ L₂ hL₂, rawMinQuorum_append hd hu]
  · ext p
    rw [Finset.mem_union, htop _ hd T hT, htop _ hd₁ T₁ hT₁, htop _ hd₂ T₂ hT₂]
    simp only [rawMinQuorum_append hd hu, or_and_right, exists_or]
  · rw [Finset.disjoint_left]
    intro p h1 h2
    obtain ⟨P, hP, hp⟩ := (htop _ hd₁ T₁ hT₁ p).1 h1
    obtain ⟨P', hP', hp'⟩ := (htop _ hd₂ T₂ hT₂ p).1 h2
    exact hdis P P' hP hP' ⟨p, hp, hp'⟩
  · rw [hi, hi₁, hi₂]
    constructor
    · intro h
      by_cases n1 : L₁ = []
      · right
        refine ⟨n1, ?_⟩
        rw [hnil r hd₁ L₁ hL₁] at n1
        rw [hqi _ hd] at h
        rw [hqi _ hd₂]
        simp only [rawMinQuorum_append hd hu] at h
        obtain ⟨⟨P, hP⟩, h2⟩ := h
        exact ⟨⟨P, hP.resolve_left fun h => n1 ⟨P, h⟩⟩,
          fun P P' h3 h4 => h2 P P' (.inr h3) (.inr h4)⟩
      · left
        have n2 : L₂ = [] := by
          by_contra n2
          exact hnot n1 n2 h
        refine ⟨?_, n2⟩
        rw [hnil r' hd₂ L₂ hL₂] at n2
        rw [hqi _ hd] at h
        rw [hqi _ hd₁]
        simp only [rawMinQuorum_append hd hu] at h
        obtain ⟨⟨P, hP⟩, h2⟩ := h
        exact ⟨⟨P, hP.resolve_right fun h => n2 ⟨P, h⟩⟩,
          fun P P' h3 h4 => h2 P P' (.inl h3) (.inl h4)⟩
    · rintro (⟨h1, n2⟩ | ⟨n1, h2⟩)
      · rw [hnil r' hd₂ L₂ hL₂] at n2
        rw [hqi _ hd₁] at h1
        rw [hqi _ hd]
        simp only [rawMinQuorum_append hd hu]
        obtain ⟨⟨P, hP⟩, h2⟩ := h1
        refine ⟨⟨P, .inl hP⟩, fun P P' h3 h4 => h2 P P' (h3.resolve_right fun h => n2 ⟨P, h⟩)
          (h4.resolve_right fun h => n2 ⟨P', h⟩)⟩
      · rw [hnil r hd₁ L₁ hL₁] at n1
        rw [hqi _ hd₂] at h2
        rw [hqi _ hd]
        simp only [rawMinQuorum_append hd hu]
        obtain ⟨⟨P, hP⟩, h2⟩ := h2
        refine ⟨⟨P, .inr hP⟩, fun P P' h3 h4 => h2 P P' (h3.resolve_left fun h => n1 ⟨P, h⟩)
          (h4.resolve_left fun h => n1 ⟨P', h⟩)⟩

/-- C87: if both networks have quorums, then the minimal blocking sets reported for both in one input are
exactly the unions of one reported for the first and one reported for the second. So the numbers of sets
multiply and the sizes add up. The objects may have been used before.

Missing for the full statement: FBASs that are not well-shaped, for which minimal blocking sets are not
always right, see C16 and C29. -/
theorem C87_blocking_partial (env env₁ env₂ : Env) (r r' : RawFbas) (hd : DistinctKeys (r ++ r'))
    (hu : Unrelated r r') (hq : ∃ P, RawQuorum r P) (hq' : ∃ P, RawQuorum r' P)
    (hw : WellShaped env (Fbas.fromRaw (r ++ r'))) (hw₁ : WellShaped env₁ (Fbas.fromRaw r))
    (hw₂ : WellShaped env₂ (Fbas.fromRaw r')) (history history₁ history₂ : List Call) :
    ∃ L L₁ L₂,
      answerAfter env (Fbas.fromRaw (r ++ r')) history .minimalBlockingSets = .ok (.sets L) ∧
      answerAfter env₁ (Fbas.fromRaw r) history₁ .minimalBlockingSets = .ok (.sets L₁) ∧
      answerAfter env₂ (Fbas.fromRaw r') history₂ .minimalBlockingSets = .ok (.sets L₂) ∧
      (L.map (names (Fbas.fromRaw (r ++ r')))).Perm
        (L₁.flatMap (fun A => L₂.map (fun A' =>
          names (Fbas.fromRaw r) A ∪ names (Fbas.fromRaw r') A'))) ∧
      L.length = L₁.length * L₂.length ∧
      (L.map Finset.card).Perm
        (L₁.flatMap (fun A => L₂.map (fun A' => A.card + A'.card))) := by
  have hd₁ := distinct_left hd
  have hd₂ := distinct_right hd
  obtain ⟨P, hP⟩ := hq
  obtain ⟨P', hP'⟩ := hq'
  obtain ⟨Q, hQ, -⟩ := (named_quorum_iff hd _).2 (rawQuorum_left (r' := r') hP)
  obtain ⟨Q₁, hQ₁, -⟩ := (named_quorum_iff hd₁ _).2 hP
  obtain ⟨Q₂, hQ₂, -⟩ := (named_quorum_iff hd₂ _).2 hP'
  obtain ⟨L, a, h, o⟩ := C29_minimal_blocking_sets_partial env _ (wf_fromRaw _) hw ⟨Q, hQ⟩ history
  obtain ⟨L₁, a₁, h₁, o₁⟩ := C29_minimal_blocking_sets_partial env₁ _ (wf_fromRaw _) hw₁ ⟨Q₁, hQ₁⟩
    history₁
  obtain ⟨L₂, a₂, h₂, o₂⟩ := C29_minimal_blocking_sets_partial env₂ _ (wf_fromRaw _) hw₂ ⟨Q₂, hQ₂⟩
    history₂
  have irr {a : NodeSet} : ¬ Before a a := by
    rintro (h | ⟨-, x, h, h', -⟩)
    · omega
    · exact h' h
  have nd {l : List NodeSet} (h : l.Pairwise Before) : l.Nodup :=
    List.Pairwise.imp (fun {a b} (h : Before a b) (he : a = b) => irr (he ▸ h)) h
  have sub : ∀ (r : RawFbas) (B : NodeSet), IsMinBlocking (Fbas.fromRaw r) B →
      B ⊆ (Fbas.fromRaw r).allNodes :=
    fun r B hB x hx => Finset.mem_range.2 (isMinBlocking_lt hB x hx)
  have hmap : ∀ (r : RawFbas) (hd : DistinctKeys r) (L : List NodeSet)
      (hL : ∀ S, S ∈ L ↔ IsMinBlocking (Fbas.fromRaw r) S) (P : Finset PublicKey),
      P ∈ L.map (names (Fbas.fromRaw r)) ↔ RawMinBlocking r P := by
    intro r hd L hL P
    rw [← named_rawMinBlocking hd, List.mem_map]
    exact exists_congr fun S => and_congr_left fun _ => hL S
  have hK := keys_disjoint hd
  have s₁ : ∀ A ∈ L₁, names (Fbas.fromRaw r) A ⊆ keys r := fun A hA =>
    rawMinBlocking_subset ((hmap r hd₁ L₁ h₁ _).1 (List.mem_map_of_mem hA))
  have s₂ : ∀ A ∈ L₂, names (Fbas.fromRaw r') A ⊆ keys r' := fun A hA =>
    rawMinBlocking_subset ((hmap r' hd₂ L₂ h₂ _).1 (List.mem_map_of_mem hA))
  have hperm : (L.map (names (Fbas.fromRaw (r ++ r')))).Perm
      (L₁.flatMap (fun A => L₂.map (fun A' =>
        names (Fbas.fromRaw r) A ∪ names (Fbas.fromRaw r') A'))) := by
    refine (List.perm_ext_iff_of_nodup ?_ ?_).2 fun P => ?_
    · refine (List.nodup_map_iff_inj_on (nd o)).2 fun a ha b hb he => ?_
      exact names_inj (distinct_fromRaw hd) (sub _ a ((h a).1 ha)) (sub _ b ((h b).1 hb)) he
    · rw [List.nodup_flatMap]
      constructor
      · intro A hA
        refine (List.nodup_map_iff_inj_on (nd o₂)).2 fun a ha b hb he => ?_
        have e : ∀ {c}, c ∈ L₂ → (names (Fbas.fromRaw r) A ∪ names (Fbas.fromRaw r') c) ∩ keys r' =
            names (Fbas.fromRaw r') c := fun hc => by
          rw [Finset.union_comm, union_inter_left (s₂ _ hc) (s₁ _ hA) hK.symm]
        have he' := congrArg (· ∩ keys r') he
        rw [e ha, e hb] at he'
        exact names_inj (distinct_fromRaw hd₂) (sub _ a ((h₂ a).1 ha)) (sub _ b ((h₂ b).1 hb)) he'
      · refine List.Pairwise.imp_of_mem ?_ (nd o₁)
        intro A B hA hB hne P h1 h2
        obtain ⟨c, hc, hc'⟩ := List.mem_map.1 h1
        obtain ⟨d, hd', hd''⟩ := List.mem_map.1 h2
        refine hne (names_inj (distinct_fromRaw hd₁) (sub _ A ((h₁ A).1 hA)) (sub _ B ((h₁ B).1 hB)) ?_)
        rw [← union_inter_left (s₁ A hA) (s₂ c hc) hK, ← union_inter_left (s₁ B hB) (s₂ d hd') hK, hc', hd'']
    · rw [hmap _ hd L h, rawMinBlocking_append hd hu]
      simp only [List.mem_flatMap, List.mem_map]
      constructor
      · rintro ⟨A, A', h3, h4, rfl⟩
        obtain ⟨B, hB, rfl⟩ := List.mem_map.1 ((hmap _ hd₁ L₁ h₁ A).2 h3)
        obtain ⟨B', hB', rfl⟩ := List.mem_map.1 ((hmap _ hd₂ L₂ h₂ A').2 h4)
        exact ⟨B, hB, B', hB', rfl⟩
      · rintro ⟨B, hB, B', hB', rfl⟩
        exact ⟨_, _, (hmap _ hd₁ L₁ h₁ _).1 (List.mem_map_of_mem hB),
          (hmap _ hd₂ L₂ h₂ _).1 (List.mem_map_of_mem hB'), rfl⟩
  have hcard : ∀ (r : RawFbas) (hd : DistinctKeys r) (B : NodeSet),
      IsMinBlocking (Fbas.fromRaw r) B → (names (Fbas.fromRaw r) B).card = B.card := by
    intro r hd B hB
    refine Finset.card_image_of_injOn fun x hx y hy he => ?_
    have hx' := sub r B hB hx
    have hy' := sub r B hB hy
    have := names_inj (distinct_fromRaw hd) (S := {x}) (T := {y}) (by simpa using hx')
      (by simpa using hy') (by unfold names; rw [Finset.image_singleton, Finset.image_singleton, he])
    exact Finset.singleton_injective this
  refine ⟨L, L₁, L₂, a, a₁, a₂, hperm, ?_, ?_⟩
  · have := hperm.length_eq
    rw [List.length_map, List.length_flatMap] at this
    rw [this]
    simp only [List.length_map, List.map_const', List.sum_replicate]
    rfl
  · have h3 := hperm.map Finset.card
    rw [List.map_map, List.map_flatMap] at h3
    have e1 : L.map (Finset.card ∘ names (Fbas.fromRaw (r ++ r'))) = L.map Finset.card :=
      List.map_congr_left fun B hB => hcard _ hd B ((h B).1 hB)
    rw [e1] at h3
    refine h3.trans (List.Perm.of_eq ?_)
    refine List.flatMap_congr fun A hA => ?_
    rw [List.map_map]
    refine List.map_congr_left fun A' hA' => ?_
    show (names (Fbas.fromRaw r) A ∪ names (Fbas.fromRaw r') A').card = _
    rw [Finset.card_union_of_disjoint (Finset.disjoint_of_subset_left (s₁ A hA)
      (Finset.disjoint_of_subset_right (s₂ A' hA') hK)), hcard _ hd₁ A ((h₁ A).1 hA),
      hcard _ hd₂ A' ((h₂ A').1 hA')]

/-- Three nodes, two of which are needed for a quorum. -/
def rawTwoOfThree (a b c : PublicKey) : RawFbas :=
  [a, b, c].map (fun p => ⟨p, ⟨2, [a, b, c], []⟩, none, none⟩)

theorem unrelated_three : Unrelated (rawTwoOfThree "a" "b" "c") (rawTwoOfThree "d" "e" "f") := by
  have key : ∀ {t : ℕ} {vs : List PublicKey} {p : PublicKey}, RawMentions ⟨t, vs, []⟩ p → p ∈ vs := by
    intro t vs p h
    cases h with
    | validator h => exact h
    | inner h _ => exact absurd h List.not_mem_nil
  have h1 : ∀ n ∈ rawTwoOfThree "a" "b" "c", n.quorumSet = ⟨2, ["a", "b", "c"], []⟩ := by
    intro n hn
    simp only [rawTwoOfThree, List.mem_map] at hn
    obtain ⟨p, -, rfl⟩ := hn
    rfl
  have h2 : ∀ n ∈ rawTwoOfThree "d" "e" "f", n.quorumSet = ⟨2, ["d", "e", "f"], []⟩ := by
    intro n hn
    simp only [rawTwoOfThree, List.mem_map] at hn
    obtain ⟨p, -, rfl⟩ := hn
    rfl
  have k1 : ∀ n ∈ rawTwoOfThree "a" "b" "c", n.publicKey ∈ ["a", "b", "c"] := by
    intro n hn
    simp only [rawTwoOfThree, List.mem_map] at hn
    obtain ⟨p, hp, rfl⟩ := hn
    exact hp
  have k2 : ∀ n ∈ rawTwoOfThree "d" "e" "f", n.publicKey ∈ ["d", "e", "f"] := by
    intro n hn
    simp only [rawTwoOfThree, List.mem_map] at hn
    obtain ⟨p, hp, rfl⟩ := hn
    exact hp
  have hdis : ∀ p ∈ ["a", "b", "c"], p ∉ ["d", "e", "f"] := by decide
  intro n hn m hm
  rw [h1 n hn, h2 m hm]
  exact ⟨fun h => hdis _ (key h) (k2 m hm), fun h => hdis _ (k1 n hn) (key h)⟩

theorem of_nodes {f : Fbas}
    (h : f.nodes.all (fun n => n.quorumSet.inner.isEmpty && decide n.quorumSet.validators.Nodup) = true) :
    ∀ n ∈ f.nodes, n.quorumSet.inner = [] ∧ n.quorumSet.validators.Nodup := by
  intro n hn
  have := List.all_eq_true.1 h n hn
  rw [Bool.and_eq_true, List.isEmpty_iff, decide_eq_true_eq] at this
  exact this

/-- Concrete case: two networks of three nodes. Each has three minimal blocking sets of two nodes, both
together have nine of four nodes. -/
example :
    DistinctKeys (rawTwoOfThree "a" "b" "c" ++ rawTwoOfThree "d" "e" "f") ∧
    Unrelated (rawTwoOfThree "a" "b" "c") (rawTwoOfThree "d" "e" "f") ∧
    WellShaped (Ref.refEnv 3) (Fbas.fromRaw (rawTwoOfThree "a" "b" "c")) ∧
    WellShaped (Ref.refEnv 3) (Fbas.fromRaw (rawTwoOfThree "d" "e" "f")) ∧
    WellShaped (Ref.refEnv 6)
      (Fbas.fromRaw (rawTwoOfThree "a" "b" "c" ++ rawTwoOfThree "d" "e" "f")) ∧
    answerAfter (Ref.refEnv 3) (Fbas.fromRaw (rawTwoOfThree "a" "b" "c")) [] .minimalBlockingSets =
      .ok (.sets [{0, 1}, {0, 2}, {1, 2}]) ∧
    answerAfter (Ref.refEnv 6)
      (Fbas.fromRaw (rawTwoOfThree "a" "b" "c" ++ rawTwoOfThree "d" "e" "f")) [] .minimalBlockingSets =
      .ok (.sets [{0, 1, 3, 4}, {0, 1, 3, 5}, {0, 1, 4, 5}, {0, 2, 3, 4}, {0, 2, 3, 5}, {0, 2, 4, 5},
        {1, 2, 3, 4}, {1, 2, 3, 5}, {1, 2, 4, 5}]) ∧
    answerAfter (Ref.refEnv 6)
      (Fbas.fromRaw (rawTwoOfThree "a" "b" "c" ++ rawTwoOfThree "d" "e" "f")) [] .minimalQuorums =
      .ok (.sets [{0, 1}, {0, 2}, {1, 2}, {3, 4}, {3, 5}, {4, 5}]) := by
  refine ⟨by unfold DistinctKeys; decide, unrelated_three, ?_, ?_, ?_, Ref.ok_of (by decide +kernel),
    Ref.ok_of (by decide +kernel), Ref.ok_of (by decide +kernel)⟩
  all_goals
    refine wellShaped_of_flat _ _ ?_
    rintro x q ⟨n, hn, rfl⟩
    refine of_nodes (f := Fbas.fromRaw _) ?_ n (List.mem_of_getElem? hn)
    decide +kernel

#print axioms C87_quorums
#print axioms C87_reports
#print axioms C87_blocking_partial

end FA.Props
