import Verif.Lemmas.CheckedSearch
import Verif.Lemmas.Blocking
import Verif.Lemmas.SplittingClusters

/-!
# Helper lemmas: debug assertions, and which panics are possible
-/

namespace FA.Checked
open FA Spec

variable {f : Fbas}

/-! ### With debug assertions, the result is the same or an assertion failure -/

theorem debugAssert_true {b : Bool} :
    debugAssert true b = if b then .ok () else .error .assertion := by
  cases b <;> rfl

theorem removeNonMinimalX_or {l : List NodeSet} {p : NodeSet → Except Panic Bool}
    {q : NodeSet → Bool} (h : ∀ s ∈ l, p s = .ok (q s)) :
    removeNonMinimalX true l p = .ok (FA.removeNonMinimalX l q) ∨
      removeNonMinimalX true l p = .error .assertion := by
  rw [FA.removeNonMinimalX_eq, removeNonMinimalX, filterE_ok h, ok_bind, debugAssert_true]
  split
  · exact .inl rfl
  · exact .inr rfl

theorem toMinimalQuorums_or {q : QuorumSet} (hq : InR f q.containedNodes) :
    toMinimalQuorums true q f = .ok (q.toMinimalQuorums f) ∨
      toMinimalQuorums true q f = .error .assertion := by
  rw [toMinimalQuorums, QuorumSet.toMinimalQuorums]
  split
  · exact removeNonMinimalX_or (fun s hs => isMinimalForQuorum_ok
      (hq.sub (toQuorumSlices_subset hs)))
  · exact .inl rfl

theorem minimalQuorumsFinder_or (env : Env) {Ks : List NodeSet} (hK : ∀ K ∈ Ks, InR f K) :
    minimalQuorumsFinder true env Ks f = FA.minimalQuorumsFinder env Ks f ∨
      minimalQuorumsFinder true env Ks f = .error .assertion := by
  rw [minimalQuorumsFinder, FA.minimalQuorumsFinder]
  generalize ([] : List NodeSet) = found
  induction Ks generalizing found with
  | nil => exact .inl rfl
  | cons K Ks ih =>
    have hKR := hK K (by simp)
    have ih := ih (fun K hK' => hK K (by simp [hK']))
    rw [foldE, minimalQuorumsInCluster, findSymmetricCluster_ok hKR, FA.minimalQuorumsFinderLoop]
    cases hsym : FA.findSymmetricClusterInConsensusCluster f K with
    | error e => exact .inl rfl
    | ok o =>
      rw [ok_bind]
      cases o with
      | some q =>
        dsimp only
        have hq := findSymmetricCluster_contained hsym
        rcases toMinimalQuorums_or (f := f) (q := q) (hq ▸ hKR) with h | h
        · rw [h, ok_bind]; exact ih _
        · rw [h]; exact .inr rfl
      | none =>
        dsimp only
        rw [sortByRank_elems env hKR, ok_bind,
          (mqStep_ok _ _ (rank_inR env hKR) (InR.empty f)).1, ok_bind]
        exact ih _

theorem toMinimalBlockingSets_or {q : QuorumSet} (hq : InR f q.containedNodes) :
    toMinimalBlockingSets true q f = .ok (q.toMinimalBlockingSets f) ∨
      toMinimalBlockingSets true q f = .error .assertion := by
  rw [toMinimalBlockingSets, QuorumSet.toMinimalBlockingSets]
  split
  · refine removeNonMinimalX_or (fun s hs => ?_)
    have := hq.sub (toBlockingSets_subset hs)
    exact isMinimalForBlockingSetPre_ok this this
  · exact .inl rfl

theorem minimalBlockingSetsFinder_or (env : Env) {Ks : List NodeSet} (hK : ∀ K ∈ Ks, InR f K) :
    minimalBlockingSetsFinder true env Ks f = FA.minimalBlockingSetsFinder env Ks f ∨
      minimalBlockingSetsFinder true env Ks f = .error .assertion := by
  have key : ∀ found, foldE (minimalBlockingSetsInCluster true env f) found Ks =
      FA.minimalBlockingSetsPerCluster env f Ks found ∨
      foldE (minimalBlockingSetsInCluster true env f) found Ks = .error .assertion := by
    induction Ks with
    | nil => intro found; exact .inl rfl
    | cons K Ks ih =>
      intro found
      have hKR := hK K (by simp)
      have ih := ih (fun K hK' => hK K (by simp [hK']))
      rw [foldE, minimalBlockingSetsInCluster, findSymmetricCluster_ok hKR,
        FA.minimalBlockingSetsPerCluster]
      cases hsym : FA.findSymmetricClusterInConsensusCluster f K with
      | error e => exact .inl rfl
      | ok o =>
        rw [ok_bind]
        cases o with
        | some q =>
          dsimp only
          have hq := findSymmetricCluster_contained hsym
          rcases toMinimalBlockingSets_or (f := f) (q := q) (hq ▸ hKR) with h | h
          · rw [h, ok_bind]; exact ih _
          · rw [h]; exact .inr rfl
        | none =>
          dsimp only
          rw [sortByRank_elems env hKR, ok_bind,
            (mbStep_ok _ _ ⟨rank_inR env hKR, InR.empty f, InR.ofList (rank_inR env hKR),
              InR.empty f⟩).1, ok_bind]
          exact ih _
  rw [minimalBlockingSetsFinder, FA.minimalBlockingSetsFinder]
  rcases key [] with h | h <;> rw [h]
  · cases FA.minimalBlockingSetsPerCluster env f Ks [] <;> exact .inl rfl
  · exact .inr rfl

/-- If the result without debug assertions is not an antichain, an assertion fails. -/
theorem findMinimalSets_assertion (env : Env) (hc : Closed f)
    {finder finder' : List NodeSet → Fbas → Except Panic (List NodeSet)}
    (h : finder (FA.consensusClusters env f) f = finder' (FA.consensusClusters env f) f ∨
      finder (FA.consensusClusters env f) f = .error .assertion) {L : List NodeSet}
    (hL : FA.findMinimalSets env f finder' = .ok L) (hn : ¬ Antichain L) :
    findMinimalSets true env f finder = .error .assertion := by
  rw [findMinimalSets, findSets_ok env hc]
  rw [FA.findMinimalSets, FA.findSets] at hL
  rcases h with h | h
  · rw [h]
    cases hf : finder' (FA.consensusClusters env f) f with
    | error e => rw [hf] at hL; simp at hL
    | ok sets =>
      rw [hf] at hL
      simp only [Except.ok.injEq] at hL
      subst hL
      rw [Antichain.perm ((sortLen_perm (sortLex sets)).trans (sortLex_perm sets)), ← isSet_iff]
        at hn
      rw [ok_bind, debugAssert_true, if_neg hn]
      rfl
  · rw [h]; rfl

theorem findMinimalQuorums_assertion (env : Env) (hc : Closed f) {L : List NodeSet}
    (hL : FA.findMinimalQuorums env f = .ok L) (hn : ¬ Antichain L) :
    findMinimalQuorums true env f = .error .assertion :=
  findMinimalSets_assertion env hc (minimalQuorumsFinder_or env (clusters_inR env)) hL hn

theorem findMinimalBlockingSets_assertion (env : Env) (hc : Closed f) {L : List NodeSet}
    (hL : FA.findMinimalBlockingSets env f = .ok L) (hn : ¬ Antichain L) :
    findMinimalBlockingSets true env f = .error .assertion :=
  findMinimalSets_assertion env hc (minimalBlockingSetsFinder_or env (clusters_inR env)) hL hn

theorem findMinimalSplittingSets_assertion (env : Env) (hc : Closed f) {M L : List NodeSet}
    (hL : FA.findMinimalSplittingSets env f M = .ok L) (hn : ¬ Antichain L) :
    findMinimalSplittingSets true env f M = .error .assertion :=
  findMinimalSets_assertion env hc
    (.inl (minimalSplittingSetsFinder_ok true env M (clusters_inR env))) hL hn

/-! ### Minimal quorums: the assertions hold iff there are no repetitions -/

theorem minQuorums_antichain {L : List NodeSet} (h : ∀ S ∈ L, IsMinQuorum f S) :
    Antichain L ↔ L.Nodup := ⟨Antichain.nodup, Antichain.of_minimal h⟩

/-- The quorums of each symmetric cluster are contained in the result with their repetitions. -/
theorem minimalQuorumsFinderLoop_sublist (env : Env) {Ks found L : List NodeSet}
    (hL : minimalQuorumsFinderLoop env f Ks found = .ok L) :
    found.Sublist L ∧ ∀ K ∈ Ks, ∀ q,
      FA.findSymmetricClusterInConsensusCluster f K = .ok (some q) →
      (q.toMinimalQuorums f).Sublist L := by
  induction Ks generalizing found with
  | nil =>
    simp only [minimalQuorumsFinderLoop, Except.ok.injEq] at hL
    exact ⟨hL ▸ List.Sublist.refl _, by simp⟩
  | cons K Ks ih =>
    rw [minimalQuorumsFinderLoop] at hL
    cases hsym : FA.findSymmetricClusterInConsensusCluster f K with
    | error e => rw [hsym] at hL; simp at hL
    | ok o =>
      rw [hsym] at hL
      cases o with
      | some q =>
        obtain ⟨h1, h2⟩ := ih hL
        refine ⟨(List.sublist_append_left _ _).trans h1, fun K' hK' q' hq' => ?_⟩
        rcases List.mem_cons.1 hK' with rfl | hK'
        · rw [hsym] at hq'
          simp only [Except.ok.injEq, Option.some.injEq] at hq'
          exact hq' ▸ (List.sublist_append_right _ _).trans h1
        · exact h2 K' hK' q' hq'
      | none =>
        obtain ⟨hr1, hr2⟩ := rank_elems env f K
        obtain ⟨L', hL1, hL2, hL3⟩ := mqStep_start f (env.rank f (elems K)) hr1 found
        dsimp only at hL
        rw [hL1] at hL
        obtain ⟨h1, h2⟩ := ih hL
        refine ⟨(List.sublist_append_left _ _).trans h1, fun K' hK' q' hq' => ?_⟩
        rcases List.mem_cons.1 hK' with rfl | hK'
        · rw [hsym] at hq'; simp at hq'
        · exact h2 K' hK' q' hq'

theorem findMinimalQuorums_debug (env : Env) (hwf : WF f) {L : List NodeSet}
    (hL : FA.findMinimalQuorums env f = .ok L) :
    findMinimalQuorums true env f = if L.Nodup then .ok L else .error .assertion := by
  have hKs := consensusClusters_spec env hwf
  have hanti : Antichain L ↔ L.Nodup := by
    obtain ⟨L', h1, h2, _⟩ := findMinimalQuorums_spec env hwf
    rw [hL] at h1
    obtain rfl : L = L' := by simpa using h1
    exact minQuorums_antichain (fun S hS => (h2 S).1 hS)
  split
  · rename_i hn
    rw [findMinimalQuorums_ok env (Closed.of_wf hwf), hL]
    · intro _ K hK q hsym _
      rcases hKs.findSymmetric hK with ⟨q', h1, _, h2, h3⟩ | ⟨h1, _⟩
      · rw [hsym] at h1
        obtain rfl : q = q' := by simpa using h1
        refine (minQuorums_antichain (fun S hS => ((mem_toMinimalQuorums h2 h3).1 hS).1)).2 ?_
        have hL' := hL
        rw [FA.findMinimalQuorums, FA.findMinimalSets, FA.findSets, FA.minimalQuorumsFinder] at hL'
        cases hl : minimalQuorumsFinderLoop env f (FA.consensusClusters env f) [] with
        | error e => rw [hl] at hL'; simp at hL'
        | ok sets =>
          rw [hl] at hL'
          simp only [Except.ok.injEq] at hL'
          have hn' : sets.Nodup := by
            rwa [← hL', (sortLen_perm _).nodup_iff, (sortLex_perm _).nodup_iff] at hn
          exact hn'.sublist
            ((minimalQuorumsFinderLoop_sublist env hl).2 K hK q hsym)
      · rw [hsym] at h1; simp at h1
    · intro _ L' hL'
      rw [hL] at hL'
      obtain rfl : L = L' := by simpa using hL'
      exact hanti.2 hn
  · rename_i hn
    exact findMinimalQuorums_assertion env (Closed.of_wf hwf) hL (fun h => hn (hanti.1 h))

theorem findMinimalBlockingSets_debug (env : Env) (hwf : WF f) (hq : ∃ Q, IsQuorum f Q)
    (hsym : ∀ q, SymCluster f q → DupFree q ∧ Sane q) :
    findMinimalBlockingSets true env f = FA.findMinimalBlockingSets env f := by
  have hKs := consensusClusters_spec env hwf
  refine findMinimalBlockingSets_ok env (Closed.of_wf hwf) (fun _ K hK q hs hdup => ?_)
    (fun _ L hL => ?_)
  · rcases hKs.findSymmetric hK with ⟨q', h1, _, h2, h3⟩ | ⟨h1, _⟩
    · rw [hs] at h1
      obtain rfl : q = q' := by simpa using h1
      have := (hsym q (hKs.symCluster_of_mem hK h2 h3)).1
      rw [dupFree_iff, ← QuorumSet.containsDuplicates_iff] at this
      simp [this] at hdup
    · rw [hs] at h1; simp at h1
  · obtain ⟨L', h1, h2, h3, _⟩ := findMinimalBlockingSets_spec env hwf hq hsym
    rw [hL] at h1
    obtain rfl : L = L' := by simpa using h1
    exact Antichain.of_minimal (fun S hS => (h2 S).1 hS) h3

theorem findMinimalSplittingSets_debug (env env' : Env) (hwf : WF f) {M : List NodeSet}
    (hM : FA.findMinimalQuorums env' f = .ok M) (hsym : ∀ q, SymCluster f q → SplitCond q) :
    findMinimalSplittingSets true env f M = FA.findMinimalSplittingSets env f M := by
  refine findMinimalSplittingSets_ok env (Closed.of_wf hwf) M (fun _ L hL => ?_)
  obtain ⟨L', h1, h2, h3, _⟩ := findMinimalSplittingSets_spec env env' hwf hM hsym
  rw [hL] at h1
  obtain rfl : L = L' := by simpa using h1
  refine Antichain.of_minimal (P := fun S => S.Nonempty ∧
    ∃ P Q, IsMinQuorum f P ∧ IsMinQuorum f Q ∧ P ≠ Q ∧ P ∩ Q = S) (fun S hS => ?_) h3
  exact (kMeet_iff (consensusClusters_spec env hwf) S).1 ((h2 S).1 hS)

/-! ### The unchecked searches never report an out-of-bounds access -/

theorem findSymmetricCluster_ne {K : NodeSet} :
    FA.findSymmetricClusterInConsensusCluster f K ≠ .error .outOfBounds := by
  rw [FA.findSymmetricClusterInConsensusCluster]
  split
  · simp
  · split
    · simp
    · split <;> simp

theorem minimalQuorumsFinderLoop_ne (env : Env) (Ks found : List NodeSet) :
    minimalQuorumsFinderLoop env f Ks found ≠ .error .outOfBounds := by
  induction Ks generalizing found with
  | nil => simp [minimalQuorumsFinderLoop]
  | cons K Ks ih =>
    rw [minimalQuorumsFinderLoop]
    have := findSymmetricCluster_ne (f := f) (K := K)
    cases hs : FA.findSymmetricClusterInConsensusCluster f K with
    | error e => rw [hs] at this; simpa using this
    | ok o => cases o <;> exact ih _

theorem minimalBlockingSetsPerCluster_ne (env : Env) (Ks : List NodeSet)
    (found : List (List NodeSet)) :
    minimalBlockingSetsPerCluster env f Ks found ≠ .error .outOfBounds := by
  induction Ks generalizing found with
  | nil => simp [minimalBlockingSetsPerCluster]
  | cons K Ks ih =>
    rw [minimalBlockingSetsPerCluster]
    have := findSymmetricCluster_ne (f := f) (K := K)
    cases hs : FA.findSymmetricClusterInConsensusCluster f K with
    | error e => rw [hs] at this; simpa using this
    | ok o => cases o <;> exact ih _

theorem minimalSplittingSetsFinderLoop_ne (env : Env) (M Ks found : List NodeSet) :
    minimalSplittingSetsFinderLoop env f M Ks found ≠ .error .outOfBounds := by
  induction Ks generalizing found with
  | nil => simp [minimalSplittingSetsFinderLoop]
  | cons K Ks ih =>
    rw [minimalSplittingSetsFinderLoop]
    have := findSymmetricCluster_ne (f := f) (K := K)
    cases hs : FA.findSymmetricClusterInConsensusCluster f K with
    | error e => rw [hs] at this; simpa using this
    | ok o => cases o <;> exact ih _

theorem findMinimalSets_ne (env : Env) {finder : List NodeSet → Fbas → Except Panic (List NodeSet)}
    (h : finder (FA.consensusClusters env f) f ≠ .error .outOfBounds) :
    FA.findMinimalSets env f finder ≠ .error .outOfBounds := by
  rw [FA.findMinimalSets, FA.findSets]
  cases hf : finder (FA.consensusClusters env f) f with
  | error e => rw [hf] at h; exact h
  | ok l => simp

theorem findMinimalQuorums_ne (env : Env) :
    FA.findMinimalQuorums env f ≠ .error .outOfBounds :=
  findMinimalSets_ne env (minimalQuorumsFinderLoop_ne env _ _)

theorem findMinimalBlockingSets_ne (env : Env) :
    FA.findMinimalBlockingSets env f ≠ .error .outOfBounds := by
  refine findMinimalSets_ne env ?_
  have := minimalBlockingSetsPerCluster_ne (f := f) env (FA.consensusClusters env f) []
  rw [FA.minimalBlockingSetsFinder]
  cases hf : minimalBlockingSetsPerCluster env f (FA.consensusClusters env f) [] with
  | error e => rw [hf] at this; simpa using this
  | ok l => simp

theorem findMinimalSplittingSets_ne (env : Env) (M : List NodeSet) :
    FA.findMinimalSplittingSets env f M ≠ .error .outOfBounds :=
  findMinimalSets_ne env (minimalSplittingSetsFinderLoop_ne env _ _ _)

theorem findNonintersectingQuorums_ne (env : Env) :
    FA.findNonintersectingQuorums env f ≠ .error .outOfBounds := by
  rw [FA.findNonintersectingQuorums, FA.findSets]
  have : FA.nonintersectingQuorumsFinder env (FA.consensusClusters env f) f ≠
      .error .outOfBounds := by
    rw [FA.nonintersectingQuorumsFinder]
    split
    · simp
    · dsimp only
      split
      · split
        · split <;> simp
        · simp
      · split <;> simp
  cases hf : FA.nonintersectingQuorumsFinder env (FA.consensusClusters env f) f with
  | error e => rw [hf] at this; simpa using this
  | ok l => simp

end FA.Checked
