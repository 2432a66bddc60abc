import Verif.Lemmas.SplittingClusters
import Verif.Lemmas.Blocking

/-!
# The searches only report nodes of the FBAS (for all FBASs, even where the reported sets are wrong)
-/

namespace FA
open Spec QuorumSet

theorem toBlockingSets_subset {q : QuorumSet} {T : NodeSet} (hT : T ∈ q.toBlockingSets) :
    T ⊆ q.containedNodes := by
  induction q using QuorumSet.induct generalizing T with
  | h t vs qs ih =>
    rw [toBlockingSets_eq] at hT
    refine combineGroups_subset ?_ hT
    intro g hg s hs x hx
    rw [mem_containedNodes]
    rcases List.mem_append.1 hg with h | h
    · obtain ⟨v, hv, rfl⟩ := List.mem_map.1 h
      rw [List.mem_singleton.1 hs, Finset.mem_singleton] at hx
      exact .validator (hx ▸ hv)
    · obtain ⟨q', hq', rfl⟩ := List.mem_map.1 h
      exact .inner hq' (mem_containedNodes.1 (ih q' hq' hs hx))

theorem dropIfOneQuorum_sub {q : QuorumSet} {L : List NodeSet} {T : NodeSet}
    (h : T ∈ q.dropIfOneQuorum L) : T ∈ L := by
  unfold dropIfOneQuorum at h
  split at h
  · split at h
    · simp at h
    · exact h
  · exact h

theorem toSplittingSets_subset {q : QuorumSet} {T : NodeSet} (hT : T ∈ q.toSplittingSets) :
    T ⊆ q.containedNodes := by
  induction q using QuorumSet.induct generalizing T with
  | h t vs qs ih =>
    rw [toSplittingSets_eq] at hT
    refine combineGroups_subset ?_ (dropIfOneQuorum_sub hT)
    intro g hg s hs x hx
    rw [mem_containedNodes]
    rcases List.mem_append.1 hg with h | h
    · obtain ⟨v, hv, rfl⟩ := List.mem_map.1 h
      rw [List.mem_singleton.1 hs, Finset.mem_singleton] at hx
      exact .validator (hx ▸ hv)
    · obtain ⟨q', hq', rfl⟩ := List.mem_map.1 h
      exact .inner hq' (mem_containedNodes.1 (ih q' hq' hs hx))

theorem msStep_subset (f : Fbas) (U : NodeSet) (fuel : ℕ) (parts : List NodeSet) (ch : Bool)
    (st : MsState) (hsel : st.selection ⊆ U) (hun : ∀ x ∈ st.unprocessed, x ∈ U)
    (hf : ∀ S ∈ st.found, S ⊆ U) :
    (msStep f fuel parts ch st).selection ⊆ U ∧
      (∀ x ∈ (msStep f fuel parts ch st).unprocessed, x ∈ U) ∧
      ∀ S ∈ (msStep f fuel parts ch st).found, S ⊆ U := by
  induction fuel generalizing parts ch st with
  | zero => exact ⟨hsel, hun, hf⟩
  | succ fuel ih =>
    rw [msStep]
    split
    · exact ⟨hsel, hun, hf⟩
    · split
      · refine ⟨hsel, hun, fun S hS => ?_⟩
        rcases List.mem_append.1 hS with h | h
        · exact hf S h
        · rw [List.mem_singleton.1 h]; exact hsel
      · split
        · exact ⟨hsel, hun, hf⟩
        next x rest hx =>
          have hxU : x ∈ U := hun x (hx ▸ List.mem_cons_self)
          have h1 := ih ((parts.filter (fun q => decide (x ∈ q))).map (fun q => q.erase x)) true
            { st with unprocessed := rest, selection := insert x st.selection }
            (Finset.insert_subset hxU hsel)
            (fun y hy => hun y (hx ▸ List.mem_cons_of_mem _ hy)) hf
          dsimp only
          generalize msStep f fuel ((parts.filter (fun q => decide (x ∈ q))).map
            (fun q => q.erase x)) true ⟨rest, insert x st.selection, st.available, st.found⟩
              = st1 at h1 ⊢
          obtain ⟨a1, a2, a3⟩ := h1
          have a1' := (Finset.erase_subset x st1.selection).trans a1
          split
          · have h2 := ih (parts.filter (fun (q : NodeSet) =>
              !decide (Disjoint q (st1.available.erase x)))) false
              { st1 with selection := st1.selection.erase x, available := st1.available.erase x }
              a1' a2 a3
            exact ⟨h2.1, fun y hy => (List.mem_cons.1 hy).elim (fun h => h ▸ hxU) (h2.2.1 y),
              h2.2.2⟩
          · exact ⟨a1', fun y hy => (List.mem_cons.1 hy).elim (fun h => h ▸ hxU) (a2 y), a3⟩

theorem clusterBlocking_subset (env : Env) {f : Fbas} {Ks : List NodeSet} (hKs : IsClusters f Ks)
    {K : NodeSet} (hK : K ∈ Ks) {S : NodeSet} (hS : S ∈ clusterBlocking env f K) : S ⊆ K := by
  unfold clusterBlocking at hS
  rcases hKs.findSymmetric hK with ⟨q, h1, _, h2, h3⟩ | ⟨h1, _⟩
  · rw [h1] at hS
    have hS' : S ∈ q.toMinimalBlockingSets f := hS
    unfold toMinimalBlockingSets at hS'
    dsimp only at hS'
    rw [← h2]
    split at hS'
    · rw [removeNonMinimalX_eq] at hS'
      exact toBlockingSets_subset (List.mem_filter.1 hS').1
    · exact toBlockingSets_subset hS'
  · rw [h1] at hS
    obtain ⟨L, h4, _, h6⟩ := mbStep_start f (env.rank f (elems K))
      ((env.rank_perm f _).nodup_iff.2 (elems_nodup K)) []
    dsimp only at hS
    rw [h4, List.nil_append, h6] at hS
    refine hS.2.trans ?_
    intro x hx
    rw [List.mem_toFinset, (env.rank_perm f _).mem_iff, mem_elems] at hx
    exact hx

theorem clusterSplitting_subset (env : Env) {f : Fbas} {Ks : List NodeSet} (hKs : IsClusters f Ks)
    (M : List NodeSet)
    {K : NodeSet} (hK : K ∈ Ks) {S : NodeSet} (hS : S ∈ clusterSplitting env f M K) : S ⊆ K := by
  unfold clusterSplitting at hS
  rcases hKs.findSymmetric hK with ⟨q, h1, _, h2, h3⟩ | ⟨h1, _⟩
  · rw [h1] at hS
    have hS' : S ∈ q.toMinimalSplittingSets := hS
    unfold toMinimalSplittingSets at hS'
    dsimp only at hS'
    rw [← h2]
    split at hS'
    · exact toSplittingSets_subset (((removeNonMinimal_spec _).1 _).1 hS').prop
    · exact toSplittingSets_subset hS'
  · rw [h1] at hS
    have hS' := (((removeNonMinimal_spec _).1 _).1 hS).prop
    refine (msStep_subset f K _ M true _ ?_ ?_ ?_).2.2 S hS'
    · simp
    · intro x hx
      exact mem_elems.1 ((env.rank_perm f _).mem_iff.1 hx)
    · simp

theorem findMinimalBlockingSets_subset (env : Env) {f : Fbas} (hwf : WF f) {L : List NodeSet}
    (hL : findMinimalBlockingSets env f = .ok L) {S : NodeSet} (hS : S ∈ L) : S ⊆ f.allNodes := by
  have hKs := consensusClusters_spec env hwf
  rw [findMinimalBlockingSets_eq env hwf] at hL
  rw [← Except.ok.inj hL, sort_mem, List.mem_map] at hS
  obtain ⟨c, hc, rfl⟩ := hS
  rw [unionAll_subset]
  intro s hs
  by_cases hne : consensusClusters env f = []
  · rw [hne] at hc
    simp [multiCartesianProduct] at hc
  · rw [multiCartesianProduct_eq_product (by simpa using hne), mem_product,
      List.forall₂_map_right_iff] at hc
    obtain ⟨K, hK, hsK⟩ : ∃ K ∈ consensusClusters env f, s ∈ clusterBlocking env f K := by
      clear hne
      revert hc
      generalize consensusClusters env f = Ks
      intro hc
      induction hc with
      | nil => simp at hs
      | cons h1 _ ih =>
        rcases List.mem_cons.1 hs with rfl | hs'
        · exact ⟨_, List.mem_cons_self, h1⟩
        · obtain ⟨g, hg, hsg⟩ := ih hs'
          exact ⟨g, List.mem_cons_of_mem _ hg, hsg⟩
    exact (clusterBlocking_subset env hKs hK hsK).trans
      ((hKs.sat K hK).trans f.satisfiableNodes_spec.sub)

theorem findMinimalSplittingSets_subset (env : Env) {f : Fbas} (hwf : WF f) {M L : List NodeSet}
    (hL : findMinimalSplittingSets env f M = .ok L) {S : NodeSet} (hS : S ∈ L) :
    S ⊆ f.allNodes := by
  have hKs := consensusClusters_spec env hwf
  rw [findMinimalSplittingSets_eq env hwf] at hL
  rw [← Except.ok.inj hL, sort_mem, List.mem_flatMap] at hS
  obtain ⟨K, hK, hS⟩ := hS
  exact (clusterSplitting_subset env hKs M hK hS).trans
    ((hKs.sat K hK).trans f.satisfiableNodes_spec.sub)

end FA
