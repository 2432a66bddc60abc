import Verif.Lemmas.Blocking

/-! Lemmas about the search for minimal blocking sets where its result is not exact: repeated nodes
and unsatisfiable inner quorum sets in symmetric clusters. -/

namespace FA
open Spec QuorumSet

/-! ### Entries of a quorum set, with validators as quorum sets -/

/-- The entries of a quorum set; the validator `v` becomes the quorum set "1 of `v`". -/
def entries (q : QuorumSet) : List QuorumSet :=
  q.validators.map (fun v => ⟨1, [v], []⟩) ++ q.inner

theorem entries_length (q : QuorumSet) :
    (entries q).length = q.validators.length + q.inner.length := by simp [entries]

theorem toBlockingSets_single (v : ℕ) : toBlockingSets ⟨1, [v], []⟩ = [({v} : NodeSet)] := by
  rw [toBlockingSets_eq]
  simp [blockingThreshold, combineGroups, combinations, multiCartesianProduct, product, unionAll_cons]

theorem slice_single {S : NodeSet} {v : ℕ} : Slice S ⟨1, [v], []⟩ ↔ v ∈ S := by
  rw [slice_iff_count]
  by_cases h : v ∈ S <;> simp [h]

theorem mentions_single {v x : ℕ} : Mentions ⟨1, [v], []⟩ x ↔ x = v := by
  constructor
  · intro h
    cases h with
    | validator h => simpa using h
    | inner h _ => simp at h
  · rintro rfl; exact .validator (by simp)

theorem mentions_of_entry {q e : QuorumSet} (he : e ∈ entries q) {x : ℕ} (h : Mentions e x) :
    Mentions q x := by
  rcases List.mem_append.1 he with h1 | h1
  · obtain ⟨v, hv, rfl⟩ := List.mem_map.1 h1
    rw [mentions_single] at h
    subst h
    exact .validator hv
  · exact .inner h1 h

theorem entries_disjoint {q : QuorumSet} (h : DupFree q) :
    (entries q).Pairwise (fun a b => ∀ x, Mentions a x → ¬ Mentions b x) := by
  obtain ⟨_, hv, hvi, hii, _⟩ := h
  rw [entries, List.pairwise_append]
  refine ⟨?_, hii, ?_⟩
  · rw [List.pairwise_map]
    refine hv.imp (fun hab x hx hx' => ?_)
    rw [mentions_single] at hx hx'
    exact hab (hx.symm.trans hx')
  · intro a ha b hb x hx hx'
    obtain ⟨v, hv, rfl⟩ := List.mem_map.1 ha
    rw [mentions_single] at hx
    subst hx
    exact hvi b hb x hx' hv

/-- Some generated blocking set lies inside `B`. -/
def Gen (B : NodeSet) (q : QuorumSet) : Prop := ∃ T ∈ q.toBlockingSets, T ⊆ B

noncomputable instance (B : NodeSet) : DecidablePred (Gen B) := fun _ => Classical.dec _

theorem gen_iff (B : NodeSet) (q : QuorumSet) : Gen B q ↔
    1 ≤ q.blockingThreshold ∧ q.blockingThreshold ≤ (entries q).countP (fun e => decide (Gen B e)) := by
  have hg : q.validators.map (fun v => [({v} : NodeSet)]) ++ q.inner.map toBlockingSets =
      (entries q).map toBlockingSets := by
    simp only [entries, List.map_append, List.map_map]
    refine congrArg (· ++ _) (List.map_congr_left (fun v _ => (toBlockingSets_single v).symm))
  have : Gen B q ↔ ∃ T ∈ combineGroups q.blockingThreshold ((entries q).map toBlockingSets), T ⊆ B := by
    rw [Gen, toBlockingSets_eq, hg]
  rw [this, exists_combineGroups_subset, List.filter_map, List.length_map, ← List.countP_eq_length_filter]
  refine and_congr_right (fun _ => ?_)
  have hc : (entries q).countP ((fun g : List NodeSet => g.any (fun s => decide (s ⊆ B))) ∘
      toBlockingSets) = (entries q).countP (fun e => decide (Gen B e)) := by
    refine List.countP_congr (fun e _ => ?_)
    rw [decide_eq_true_iff, Gen]
    simp
  rw [hc]

theorem slice_iff_entries (S : NodeSet) (q : QuorumSet) : Slice S q ↔
    1 ≤ q.threshold ∧ q.threshold ≤ (entries q).countP (fun e => decide (Slice S e)) := by
  obtain ⟨t, vs, qs⟩ := q
  rw [slice_iff_count, entries, List.countP_append, List.countP_map,
    ← List.countP_eq_length_filter, ← List.countP_eq_length_filter]
  have : vs.countP ((fun e => decide (Slice S e)) ∘ fun v => (⟨1, [v], []⟩ : QuorumSet)) =
      vs.countP (fun x => decide (x ∈ S)) := by
    refine List.countP_congr (fun v _ => ?_)
    simp [slice_single]
  rw [this]

/-- Every entry is the quorum set of a validator or an inner quorum set. -/
theorem forall_entries {q : QuorumSet} {p : QuorumSet → Prop} :
    (∀ e ∈ entries q, p e) ↔ (∀ v ∈ q.validators, p ⟨1, [v], []⟩) ∧ ∀ e ∈ q.inner, p e := by
  simp only [entries, List.mem_append, List.mem_map]
  constructor
  · intro h; exact ⟨fun v hv => h _ (.inl ⟨v, hv, rfl⟩), fun e he => h e (.inr he)⟩
  · rintro ⟨h1, h2⟩ e (⟨v, hv, rfl⟩ | he)
    · exact h1 v hv
    · exact h2 e he

/-- Generated sets do block (whatever the thresholds are, and also with repeated nodes). -/
theorem gen_sound {q : QuorumSet} {B S : NodeSet} (h : Gen B q) (hS : ∀ x ∈ S, x ∉ B) :
    ¬ Slice S q := by
  induction q using QuorumSet.induct with
  | h t vs qs ih =>
    intro hs
    obtain ⟨h1, h2⟩ := (gen_iff B _).1 h
    obtain ⟨h3, h4⟩ := (slice_iff_entries S _).1 hs
    have hex : ∀ e ∈ entries ⟨t, vs, qs⟩, ¬ (Gen B e ∧ Slice S e) := by
      rw [forall_entries]
      refine ⟨fun v _ hv => ?_, fun e he hv => ih e he hv.1 hv.2⟩
      obtain ⟨⟨T, hT, hTB⟩, hv2⟩ := hv
      rw [toBlockingSets_single, List.mem_singleton] at hT
      subst hT
      rw [slice_single] at hv2
      exact hS v hv2 (hTB (by simp))
    have hle : (entries ⟨t, vs, qs⟩).countP (fun e => decide (Gen B e)) ≤
        (entries ⟨t, vs, qs⟩).countP (fun e => !decide (Slice S e)) :=
      List.countP_mono_left (fun e he hg => by
        have := hex e he
        simp only [decide_eq_true_eq] at hg
        simp only [Bool.not_eq_true', decide_eq_false_iff_not]
        exact fun h => this ⟨hg, h⟩)
    have hsum := List.length_eq_countP_add_countP (fun e => decide (Slice S e)) (l := entries ⟨t, vs, qs⟩)
    rw [entries_length] at hsum
    have hbt : blockingThreshold ⟨t, vs, qs⟩ = vs.length + qs.length - t + 1 ∨
        blockingThreshold ⟨t, vs, qs⟩ = 0 := by
      simp only [blockingThreshold]
      split <;> simp
    have hconv : (entries ⟨t, vs, qs⟩).countP (fun a => decide ¬ (fun e => decide (Slice S e)) a = true) =
        (entries ⟨t, vs, qs⟩).countP (fun e => !decide (Slice S e)) := by
      refine List.countP_congr (fun e _ => by simp)
    rw [hconv] at hsum
    simp only at hsum h3 h4
    omega

theorem toBlockingSets_subset {q : QuorumSet} {T : NodeSet} (hT : T ∈ q.toBlockingSets) :
    T ⊆ q.containedNodes := by
  induction q using QuorumSet.induct generalizing T with
  | h t vs qs ih =>
    rw [toBlockingSets_eq] at hT
    refine combineGroups_subset ?_ hT
    intro g hg s hs
    rcases List.mem_append.1 hg with hg | hg
    · obtain ⟨v, hv, rfl⟩ := List.mem_map.1 hg
      rw [List.mem_singleton] at hs
      subst hs
      simp only [Finset.singleton_subset_iff]
      exact mem_containedNodes.2 (.validator hv)
    · obtain ⟨q', hq', rfl⟩ := List.mem_map.1 hg
      intro x hx
      exact mem_containedNodes.2 (.inner hq' (mem_containedNodes.1 (ih q' hq' hs hx)))

theorem toBlockingSets_nonempty {q : QuorumSet} {T : NodeSet} (hT : T ∈ q.toBlockingSets) :
    T.Nonempty := by
  induction q using QuorumSet.induct generalizing T with
  | h t vs qs ih =>
    rw [toBlockingSets_eq, mem_combineGroups] at hT
    obtain ⟨hk, gs, c, h1, h2, hc, rfl⟩ := hT
    cases hc with
    | nil => simp at h2; omega
    | @cons s g c gs hs hc =>
      have hsn : s.Nonempty := by
        rcases List.mem_append.1 (h1.subset (List.mem_cons_self ..)) with hg | hg
        · obtain ⟨v, hv, rfl⟩ := List.mem_map.1 hg
          rw [List.mem_singleton] at hs
          subst hs; simp
        · obtain ⟨q', hq', rfl⟩ := List.mem_map.1 hg
          exact ih q' hq' hs
      rw [unionAll_cons]
      exact hsn.mono Finset.subset_union_left

/-- Where some threshold is 0 or too large, some blocking set is not generated. -/
theorem gen_incomplete {q : QuorumSet} (hd : DupFree q) (hs : ¬ Sane q) :
    ∃ B, (∀ x ∈ B, Mentions q x) ∧ ¬ Gen B q ∧ ∀ S, (∀ x ∈ S, x ∉ B) → ¬ Slice S q := by
  induction q using QuorumSet.induct with
  | h t vs qs ih =>
    by_cases ht : 1 ≤ t ∧ t ≤ vs.length + qs.length
    · obtain ⟨ht1, ht2⟩ := ht
      have hinner : ∃ q' ∈ qs, ¬ Sane q' := by
        by_contra hno
        push Not at hno
        exact hs (.intro _ ht1 ht2 hno)
      obtain ⟨q', hq', hs'⟩ := hinner
      have hd' := hd
      obtain ⟨_, _, _, _, hi⟩ := hd'
      obtain ⟨B', hB1, hB2, hB3⟩ := ih q' hq' (hi q' hq') hs'
      -- the other entries
      have hqe : q' ∈ entries ⟨t, vs, qs⟩ := List.mem_append_right _ hq'
      obtain ⟨as, bs, hab⟩ := List.append_of_mem hqe
      have hperm : (entries ⟨t, vs, qs⟩).Perm (q' :: (as ++ bs)) := by
        rw [hab]; exact List.perm_middle
      have hlen : (as ++ bs).length + 1 = vs.length + qs.length := by
        have := hperm.length_eq
        rw [entries_length] at this
        simpa using this.symm
      have hdis : (q' :: (as ++ bs)).Pairwise (fun a b => ∀ x, Mentions a x → ¬ Mentions b x) :=
        (hperm.pairwise_iff (fun h x hx hx' => h x hx' hx)).1 (entries_disjoint hd)
      have hmem : ∀ e ∈ as ++ bs, e ∈ entries ⟨t, vs, qs⟩ :=
        fun e he => hperm.mem_iff.2 (List.mem_cons_of_mem _ he)
      generalize as ++ bs = rest at *
      clear hab as bs
      obtain ⟨k, hk⟩ : ∃ k, k = vs.length + qs.length - t := ⟨_, rfl⟩
      have hsplit : rest = rest.take k ++ rest.drop k := (List.take_append_drop k rest).symm
      have htl : (rest.take k).length = k := by rw [List.length_take]; omega
      generalize rest.take k = take at *
      generalize rest.drop k = drop at *
      subst hsplit
      rw [List.pairwise_cons, List.pairwise_append] at hdis
      obtain ⟨hdq, _, _, hdtd⟩ := hdis
      have hin : ∀ {x}, x ∈ B' ∪ unionAll (take.map containedNodes) →
          x ∈ B' ∨ ∃ e ∈ take, Mentions e x := by
        intro x hx
        rcases Finset.mem_union.1 hx with h | h
        · exact .inl h
        · obtain ⟨s, hs, hxs⟩ := mem_unionAll.1 h
          obtain ⟨e, he, rfl⟩ := List.mem_map.1 hs
          exact .inr ⟨e, he, mem_containedNodes.1 hxs⟩
      have hge : ∀ e : QuorumSet, ∀ T ∈ e.toBlockingSets, ∀ x ∈ T, Mentions e x :=
        fun e T hT x hx => mem_containedNodes.1 (toBlockingSets_subset hT hx)
      refine ⟨B' ∪ unionAll (take.map containedNodes), ?_, ?_, ?_⟩
      · intro x hx
        rcases hin hx with h | ⟨e, he, h⟩
        · exact .inner hq' (hB1 x h)
        · exact mentions_of_entry (hmem e (List.mem_append_left _ he)) h
      · intro hg
        obtain ⟨_, h2⟩ := (gen_iff _ _).1 hg
        rw [hperm.countP_eq, List.countP_cons, List.countP_append] at h2
        have hg1 : ¬ Gen (B' ∪ unionAll (take.map containedNodes)) q' := by
          rintro ⟨T, hT, hTB⟩
          refine hB2 ⟨T, hT, fun x hx => ?_⟩
          rcases hin (hTB hx) with h | ⟨e, he, h⟩
          · exact h
          · exact absurd h (hdq e (List.mem_append_left _ he) x (hge q' T hT x hx))
        have hg2 : drop.countP (fun e => decide
            (Gen (B' ∪ unionAll (take.map containedNodes)) e)) = 0 := by
          rw [List.countP_eq_zero]
          intro e he
          simp only [decide_eq_true_eq]
          rintro ⟨T, hT, hTB⟩
          obtain ⟨x, hx⟩ := toBlockingSets_nonempty hT
          rcases hin (hTB hx) with h | ⟨e', he', h⟩
          · exact hdq e (List.mem_append_right _ he) x (hB1 x h) (hge e T hT x hx)
          · exact hdtd e' he' e he x h (hge e T hT x hx)
        have hg3 := List.countP_le_length (l := take)
          (p := fun e => decide (Gen (B' ∪ unionAll (take.map containedNodes)) e))
        have hbt : blockingThreshold ⟨t, vs, qs⟩ = vs.length + qs.length - t + 1 := by
          simp only [blockingThreshold]; rw [if_pos ht2]
        rw [hg2, hbt] at h2
        simp only [hg1, decide_false, Bool.false_eq_true, if_false] at h2
        omega
      · intro S hS hsl
        obtain ⟨_, h2⟩ := (slice_iff_entries _ _).1 hsl
        rw [hperm.countP_eq, List.countP_cons, List.countP_append] at h2
        have hg1 : ¬ Slice S q' := hB3 S (fun x hx hxB => hS x hx (Finset.mem_union_left _ hxB))
        have hg2 : take.countP (fun e => decide (Slice S e)) = 0 := by
          rw [List.countP_eq_zero]
          intro e he
          simp only [decide_eq_true_eq]
          intro hse
          obtain ⟨x, hx, hxS⟩ := hse.nonempty
          exact hS x hxS (Finset.mem_union_right _
            (mem_unionAll.2 ⟨_, List.mem_map.2 ⟨e, he, rfl⟩, mem_containedNodes.2 hx⟩))
        have hg3 := List.countP_le_length (l := drop) (p := fun e => decide (Slice S e))
        rw [hg2] at h2
        simp only [hg1, decide_false, Bool.false_eq_true, if_false] at h2
        simp only [List.length_append] at hlen
        omega
    · refine ⟨∅, by simp, ?_, ?_⟩
      · intro hg
        obtain ⟨h1, h2⟩ := (gen_iff _ _).1 hg
        have := List.countP_le_length (l := entries ⟨t, vs, qs⟩) (p := fun e => decide (Gen ∅ e))
        rw [entries_length] at this
        have hbt : blockingThreshold ⟨t, vs, qs⟩ =
          if t ≤ vs.length + qs.length then vs.length + qs.length - t + 1 else 0 := rfl
        rw [hbt] at h1 h2
        split at h1
        · rename_i hle
          rw [if_pos hle] at h2
          simp only at this
          omega
        · omega
      · intro S _ hsl
        obtain ⟨h1, h2⟩ := (slice_iff_entries _ _).1 hsl
        have := List.countP_le_length (l := entries ⟨t, vs, qs⟩) (p := fun e => decide (Slice S e))
        rw [entries_length] at this
        simp only at this h1 h2
        omega

/-! ### The minimality check for repeated nodes -/

theorem isBlockedSet_false_mono {f : Fbas} {S T : NodeSet} (h : isBlockedSet f S = false)
    (hST : S ⊆ T) : isBlockedSet f T = false := by
  rw [Bool.eq_false_iff, ne_eq, isBlockedSet_iff] at h ⊢
  exact fun h' => h (fun Q hQ hsub => h' Q hQ (hsub.trans hST))

theorem minimalForBlockingSetLoop_self (f : Fbas) (l : List ℕ) (hl : l.Nodup) (hne : l ≠ []) :
    minimalForBlockingSetLoop f l l.toFinset = true ↔
      isBlockedSet f {l.getLast hne} = false := by
  induction l with
  | nil => exact absurd rfl hne
  | cons x l ih =>
    rw [List.nodup_cons] at hl
    have he : (insert x (x :: l).toFinset).erase x = l.toFinset := by
      ext y
      simp only [Finset.mem_erase, Finset.mem_insert, List.mem_toFinset, List.mem_cons]
      constructor
      · rintro ⟨h1, h2⟩; tauto
      · intro h; exact ⟨fun h' => hl.1 (h' ▸ h), .inr (.inr h)⟩
    have hi : insert x (x :: l).toFinset = (x :: l).toFinset := by simp
    simp only [minimalForBlockingSetLoop]
    rw [he, hi]
    cases l with
    | nil =>
      simp only [minimalForBlockingSetLoop, List.getLast_singleton]
      have : ([x] : List ℕ).toFinset = {x} := by simp
      rw [this]
      cases isBlockedSet f {x} <;> simp
    | cons y l =>
      rw [List.getLast_cons (by simp)]
      have ih' := ih hl.2 (by simp)
      split
      next h =>
        simp only [Bool.false_eq_true, false_iff]
        intro h'
        have := isBlockedSet_false_mono h' (T := (x :: y :: l).toFinset) (by
          rw [Finset.singleton_subset_iff, List.mem_toFinset]
          exact List.mem_cons_of_mem _ (List.getLast_mem _))
        rw [h] at this
        cases this
      next h => exact ih'

theorem isQuorum_singleton_iff {f : Fbas} {x : ℕ} :
    isBlockedSet f {x} = false ↔ IsQuorum f {x} := by
  rw [Bool.eq_false_iff, ne_eq, isBlockedSet_iff]
  push Not
  constructor
  · rintro ⟨Q, hQ, hsub⟩
    rcases Finset.subset_singleton_iff.1 hsub with h | h
    · subst h; exact absurd hQ.1 (by simp)
    · exact h ▸ hQ
  · intro h; exact ⟨_, h, Finset.Subset.refl _⟩

/-- What the minimality check of the code decides: whether the node with the largest ID is a quorum
on its own. -/
theorem isMinimalForBlockingSet_iff {f : Fbas} {T : NodeSet} (hne : T.Nonempty) :
    isMinimalForBlockingSet f T = true ↔ ∃ x ∈ T, (∀ y ∈ T, y ≤ x) ∧ IsQuorum f {x} := by
  rw [isMinimalForBlockingSet, isMinimalForBlockingSetPre]
  have h2 : elems T ≠ [] := by
    obtain ⟨x, hx⟩ := hne
    exact List.ne_nil_of_mem (mem_elems.2 hx)
  have := minimalForBlockingSetLoop_self f (elems T) (elems_nodup T) h2
  rw [toFinset_elems] at this
  rw [this, isQuorum_singleton_iff]
  have h3 : ∀ y ∈ T, y ≤ (elems T).getLast h2 := by
    intro y hy
    obtain ⟨i, hi, he⟩ := List.getElem_of_mem (mem_elems.2 hy)
    rw [← he, List.getLast_eq_getElem]
    have hs := elems_pairwise T
    rw [List.pairwise_iff_getElem] at hs
    rcases Nat.lt_or_ge i ((elems T).length - 1) with h | h
    · exact le_of_lt (hs i _ hi (by omega) h)
    · have : i = (elems T).length - 1 := by omega
      subst this; exact le_refl _
  have h4 := mem_elems.1 (List.getLast_mem h2)
  constructor
  · intro h; exact ⟨_, h4, h3, h⟩
  · rintro ⟨x, hx, hmax, hq⟩
    have : x = (elems T).getLast h2 := le_antisymm (h3 x hx) (hmax _ h4)
    rw [← this]; exact hq

/-! ### Several clusters -/

theorem productUnion_of_mem {α : Type} {Ks : List α} {F : α → List NodeSet} {S : NodeSet}
    (h : S ∈ productUnion (Ks.map F)) {K : α} (hK : K ∈ Ks) : ∃ T ∈ F K, T ⊆ S := by
  induction Ks generalizing S with
  | nil => simp at hK
  | cons K' Ks ih =>
    rw [List.map_cons, productUnion_cons, List.mem_flatMap] at h
    obtain ⟨s, hs, hS⟩ := h
    obtain ⟨T, hT, rfl⟩ := List.mem_map.1 hS
    rcases List.mem_cons.1 hK with rfl | hK
    · exact ⟨s, hs, Finset.subset_union_left⟩
    · obtain ⟨T', hT', hsub⟩ := ih hT hK
      exact ⟨T', hT', hsub.trans Finset.subset_union_right⟩

theorem clusterBlocking_nonsym (env : Env) {f : Fbas} {K : NodeSet}
    (h : findSymmetricClusterInConsensusCluster f K = .ok none) (S : NodeSet) :
    S ∈ clusterBlocking env f K ↔ Minimal (Hits f K) S := by
  unfold clusterBlocking
  rw [h]
  dsimp only
  obtain ⟨hr1, hr2⟩ := rank_elems env f K
  obtain ⟨L, hL1, hL2, hL3⟩ := mbStep_start f (env.rank f (elems K)) hr1 []
  rw [hL1, List.nil_append, hL3, hr2]
  exact ⟨fun h => h.1, fun h => ⟨h, minimal_hits_subset h⟩⟩

theorem toMinimalBlockingSets_subset {q : QuorumSet} {f : Fbas} {T : NodeSet}
    (hT : T ∈ q.toMinimalBlockingSets f) : T ∈ q.toBlockingSets := by
  simp only [toMinimalBlockingSets, removeNonMinimalX_eq] at hT
  split at hT
  · exact (List.mem_filter.1 hT).1
  · exact hT

theorem clusterBlocking_sound (env : Env) {f : Fbas} {Ks : List NodeSet} (hKs : IsClusters f Ks)
    {K : NodeSet} (hK : K ∈ Ks) {T : NodeSet} (hT : T ∈ clusterBlocking env f K) :
    T ⊆ K ∧ Hits f K T := by
  rcases hKs.findSymmetric hK with ⟨q, h1, _, h2, h3⟩ | ⟨h1, _⟩
  · unfold clusterBlocking at hT
    rw [h1] at hT
    have hT' := toMinimalBlockingSets_subset hT
    refine ⟨h2 ▸ toBlockingSets_subset hT', fun Q hQ hsub => ?_⟩
    have := (symmetric_quorum_iff h3 (hsub.trans Finset.sdiff_subset)).1 hQ
    exact gen_sound ⟨T, hT', Finset.Subset.refl _⟩
      (fun x hx => (Finset.mem_sdiff.1 (hsub hx)).2) this
  · have := (clusterBlocking_nonsym env h1 T).1 hT
    exact ⟨minimal_hits_subset this, this.prop⟩

/-- All returned sets are blocking sets. -/
theorem findMinimalBlockingSets_sound (env : Env) {f : Fbas} (hwf : WF f) {L : List NodeSet}
    (hL : findMinimalBlockingSets env f = .ok L) {S : NodeSet} (hS : S ∈ L) : Blocking f S := by
  have hKs := consensusClusters_spec env hwf
  rw [findMinimalBlockingSets_eq env hwf] at hL
  injection hL with hL
  subst hL
  rw [sort_mem] at hS
  by_cases hne : consensusClusters env f = []
  · rw [hne] at hS; simp [multiCartesianProduct] at hS
  · rw [multiCartesianProduct_eq_product (by simpa using hne), ← productUnion] at hS
    rw [hKs.blocking_iff]
    intro K hK
    obtain ⟨T, hT, hsub⟩ := productUnion_of_mem hS hK
    exact (clusterBlocking_sound env hKs hK hT).2.mono hsub

/-- Blocking sets of a symmetric cluster extend to blocking sets of the FBAS, and those extend a
generated set. -/
theorem gen_of_complete (env : Env) {f : Fbas} (hwf : WF f) {L : List NodeSet}
    (hL : findMinimalBlockingSets env f = .ok L)
    (hex : ∀ S, IsMinBlocking f S → S ∈ L) {K : NodeSet} (hK : K ∈ consensusClusters env f)
    {B : NodeSet} (hB : Hits f K B) : ∃ T ∈ clusterBlocking env f K, T ⊆ B := by
  have hKs := consensusClusters_spec env hwf
  have hBl : Blocking f ((B ∩ K) ∪ unionAll ((consensusClusters env f).filter (· ≠ K))) := by
    rw [hKs.blocking_iff]
    intro K' hK'
    by_cases he : K' = K
    · subst he
      refine Hits.mono ?_ Finset.subset_union_left
      exact (hits_congr (fun x hx => by simp [hx])).1 hB
    · intro Q hQ hsub
      obtain ⟨x, hx⟩ := hQ.1
      have := Finset.mem_sdiff.1 (hsub hx)
      exact this.2 (Finset.mem_union_right _ (mem_unionAll.2
        ⟨K', List.mem_filter.2 ⟨hK', by simpa using he⟩, this.1⟩))
  obtain ⟨S, hSsub, hS⟩ := exists_minimal_le_of_wellFoundedLT (Blocking f) _ hBl
  have hSL := hex S hS
  rw [findMinimalBlockingSets_eq env hwf] at hL
  injection hL with hL
  subst hL
  rw [sort_mem, multiCartesianProduct_eq_product (by simpa using List.ne_nil_of_mem hK),
    ← productUnion] at hSL
  obtain ⟨T, hT, hsub⟩ := productUnion_of_mem hSL hK
  refine ⟨T, hT, fun x hx => ?_⟩
  have hxK := (clusterBlocking_sound env hKs hK hT).1 hx
  rcases Finset.mem_union.1 (hSsub (hsub hx)) with h | h
  · exact (Finset.mem_inter.1 h).1
  · obtain ⟨K', hK', hxK'⟩ := mem_unionAll.1 h
    obtain ⟨hK'1, hK'2⟩ := List.mem_filter.1 hK'
    exact absurd (hKs.eq_of_mem hK'1 hK hxK' hxK) (by simpa using hK'2)

/-- With a repeated node, and without nodes that are a quorum on their own, nothing is left after
the minimality check. -/
theorem toMinimalBlockingSets_nil {f : Fbas} {q : QuorumSet} (hd : ¬ DupFree q)
    (hno : ∀ x, Mentions q x → ¬ IsQuorum f {x}) : q.toMinimalBlockingSets f = [] := by
  have hdup : q.containsDuplicates = true := by
    by_contra h
    rw [Bool.not_eq_true, containsDuplicates_iff, ← dupFree_iff] at h
    exact hd h
  simp only [toMinimalBlockingSets, hdup, if_true, removeNonMinimalX_eq]
  rw [List.filter_eq_nil_iff]
  intro T hT h
  have hne := toBlockingSets_nonempty hT
  obtain ⟨x, hx, _, hq⟩ := (isMinimalForBlockingSet_iff hne).1 h
  exact hno x (mem_containedNodes.1 (toBlockingSets_subset hT hx)) hq

theorem productUnion_nil_of_mem {α : Type} {Ks : List α} {F : α → List NodeSet} {K : α} (hK : K ∈ Ks)
    (h : F K = []) : productUnion (Ks.map F) = [] := by
  rw [List.eq_nil_iff_forall_not_mem]
  intro S hS
  obtain ⟨T, hT, _⟩ := productUnion_of_mem hS hK
  rw [h] at hT; simp at hT

theorem findMinimalBlockingSets_duplicates (env : Env) {f : Fbas} (hwf : WF f) {q : QuorumSet}
    (hq : SymCluster f q) (hd : ¬ DupFree q) (hno : ∀ x, Mentions q x → ¬ IsQuorum f {x}) :
    findMinimalBlockingSets env f = .ok [] := by
  have hKs := consensusClusters_spec env hwf
  obtain ⟨K, hK, h1, h2⟩ := hKs.symCluster_mem hq
  rw [findMinimalBlockingSets_eq env hwf,
    multiCartesianProduct_eq_product (by simpa using List.ne_nil_of_mem hK), ← productUnion,
    productUnion_nil_of_mem hK]
  · simp [sortLen, sortLex]
  · unfold clusterBlocking
    rcases hKs.findSymmetric hK with ⟨q', h3, h4, _, _⟩ | ⟨_, h3⟩
    · rw [h4] at h1
      simp only [List.cons.injEq, and_true] at h1
      subst h1
      rw [h3]
      exact toMinimalBlockingSets_nil hd hno
    · rw [h1] at h3; simp at h3

end FA
