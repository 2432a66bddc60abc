import Verif.SpecSeparate
import Verif.Lemmas.WhatIf

/-!
# Helper lemmas: networks that do not depend on each other
-/

namespace FA
open Spec

variable {r r' : RawFbas}

theorem Spec.RawSlice.of_listed {P P' : Finset PublicKey} {q : RawQuorumSet} (h : RawSlice P q)
    (hP : ∀ p, RawMentions q p → p ∈ P → p ∈ P') : RawSlice P' q := by
  induction h with
  | intro q vs qs hvs hqs hin hsat hpos hlen ih =>
    refine .intro q vs qs hvs hqs (fun v hv => ?_) (fun q' hq' => ?_) hpos hlen
    · exact hP v (.validator (hvs.subset hv)) (hin v hv)
    · exact ih q' hq' (fun p hp => hP p (.inner (hqs.subset hq') hp))

theorem Spec.Unrelated.symm (h : Unrelated r r') : Unrelated r' r :=
  fun n hn m hm => (h m hm n hn).symm

theorem rawQuorum_mono {P : Finset PublicKey} (hs : ∀ n ∈ r, n ∈ r') (h : RawQuorum r P) :
    RawQuorum r' P :=
  ⟨h.1, fun p hp => by obtain ⟨n, hn, h1⟩ := h.2 p hp; exact ⟨n, hs n hn, h1⟩⟩

/-- The public keys of the nodes. -/
def keys (r : RawFbas) : Finset PublicKey := (r.map RawNode.publicKey).toFinset

theorem mem_keys {p : PublicKey} : p ∈ keys r ↔ ∃ n ∈ r, n.publicKey = p := by
  simp [keys]

theorem Spec.RawQuorum.subset_keys {P : Finset PublicKey} (h : RawQuorum r P) : P ⊆ keys r := by
  intro p hp
  obtain ⟨n, hn, h1, -⟩ := h.2 p hp
  exact mem_keys.2 ⟨n, hn, h1⟩

theorem keys_disjoint (hd : DistinctKeys (r ++ r')) : Disjoint (keys r) (keys r') := by
  unfold DistinctKeys at hd
  rw [List.map_append, List.nodup_append] at hd
  rw [Finset.disjoint_left]
  intro p h1 h2
  exact hd.2.2 p (List.mem_toFinset.1 h1) p (List.mem_toFinset.1 h2) rfl

theorem rawQuorum_inter_left (hd : DistinctKeys (r ++ r')) (hu : Unrelated r r')
    {P : Finset PublicKey} (h : RawQuorum (r ++ r') P) (hne : (P ∩ keys r).Nonempty) :
    RawQuorum r (P ∩ keys r) := by
  refine ⟨hne, fun p hp => ?_⟩
  obtain ⟨hp1, hp2⟩ := Finset.mem_inter.1 hp
  obtain ⟨n, hn, rfl, hs⟩ := h.2 p hp1
  have hnr : n ∈ r := by
    rcases List.mem_append.1 hn with h1 | h1
    · exact h1
    · exact absurd (mem_keys.2 ⟨n, h1, rfl⟩) (Finset.disjoint_left.1 (keys_disjoint hd) hp2)
  refine ⟨n, hnr, rfl, hs.of_listed fun x hx hxP => Finset.mem_inter.2 ⟨hxP, ?_⟩⟩
  obtain ⟨m, hm, rfl, -⟩ := h.2 x hxP
  rcases List.mem_append.1 hm with h1 | h1
  · exact mem_keys.2 ⟨m, h1, rfl⟩
  · exact absurd hx (hu n hnr m h1).1

theorem rawQuorum_comm {P : Finset PublicKey} (h : RawQuorum (r ++ r') P) :
    RawQuorum (r' ++ r) P :=
  rawQuorum_mono (fun n hn => by simp only [List.mem_append] at hn ⊢; exact hn.symm) h

theorem distinct_comm (hd : DistinctKeys (r ++ r')) : DistinctKeys (r' ++ r) := by
  unfold DistinctKeys at hd ⊢
  rw [List.map_append] at hd ⊢
  exact List.nodup_append_comm.1 hd

theorem rawQuorum_inter_right (hd : DistinctKeys (r ++ r')) (hu : Unrelated r r')
    {P : Finset PublicKey} (h : RawQuorum (r ++ r') P) (hne : (P ∩ keys r').Nonempty) :
    RawQuorum r' (P ∩ keys r') :=
  rawQuorum_inter_left (distinct_comm hd) hu.symm (rawQuorum_comm h) hne

theorem rawQuorum_left {P : Finset PublicKey} (h : RawQuorum r P) : RawQuorum (r ++ r') P :=
  rawQuorum_mono (fun _ hn => List.mem_append_left _ hn) h

theorem rawQuorum_right {P : Finset PublicKey} (h : RawQuorum r' P) : RawQuorum (r ++ r') P :=
  rawQuorum_mono (fun _ hn => List.mem_append_right _ hn) h

theorem rawQuorum_union {P P' : Finset PublicKey} (h : RawQuorum r P ∨ P = ∅)
    (h' : RawQuorum r' P' ∨ P' = ∅) (hne : (P ∪ P').Nonempty) : RawQuorum (r ++ r') (P ∪ P') := by
  refine ⟨hne, fun p hp => ?_⟩
  rcases Finset.mem_union.1 hp with h1 | h1
  · rcases h with h | h
    · obtain ⟨n, hn, h2, h3⟩ := h.2 p h1
      exact ⟨n, List.mem_append_left _ hn, h2,
        h3.of_listed fun _ _ hx => Finset.mem_union_left _ hx⟩
    · rw [h] at h1; simp at h1
  · rcases h' with h' | h'
    · obtain ⟨n, hn, h2, h3⟩ := h'.2 p h1
      exact ⟨n, List.mem_append_right _ hn, h2,
        h3.of_listed fun _ _ hx => Finset.mem_union_right _ hx⟩
    · rw [h'] at h1; simp at h1

theorem inter_or (hd : DistinctKeys (r ++ r')) (hu : Unrelated r r') {P : Finset PublicKey}
    (h : RawQuorum (r ++ r') P) : RawQuorum r (P ∩ keys r) ∨ RawQuorum r' (P ∩ keys r') := by
  obtain ⟨p, hp⟩ := h.1
  obtain ⟨n, hn, rfl, -⟩ := h.2 p hp
  rcases List.mem_append.1 hn with h1 | h1
  · exact .inl (rawQuorum_inter_left hd hu h
      ⟨_, Finset.mem_inter.2 ⟨hp, mem_keys.2 ⟨n, h1, rfl⟩⟩⟩)
  · exact .inr (rawQuorum_inter_right hd hu h
      ⟨_, Finset.mem_inter.2 ⟨hp, mem_keys.2 ⟨n, h1, rfl⟩⟩⟩)

theorem rawMinQuorum_append (hd : DistinctKeys (r ++ r')) (hu : Unrelated r r')
    (P : Finset PublicKey) :
    RawMinQuorum (r ++ r') P ↔ RawMinQuorum r P ∨ RawMinQuorum r' P := by
  constructor
  · rintro ⟨h1, h2⟩
    rcases inter_or hd hu h1 with h3 | h3
    · have h4 : P ⊆ P ∩ keys r := h2 (rawQuorum_left h3) Finset.inter_subset_left
      have h5 : P ∩ keys r = P := Finset.inter_eq_left.2 (h4.trans Finset.inter_subset_right)
      rw [h5] at h3
      exact .inl ⟨h3, fun P' hP' hsub => h2 (rawQuorum_left hP') hsub⟩
    · have h4 : P ⊆ P ∩ keys r' := h2 (rawQuorum_right h3) Finset.inter_subset_left
      have h5 : P ∩ keys r' = P := Finset.inter_eq_left.2 (h4.trans Finset.inter_subset_right)
      rw [h5] at h3
      exact .inr ⟨h3, fun P' hP' hsub => h2 (rawQuorum_right hP') hsub⟩
  · rintro (⟨h1, h2⟩ | ⟨h1, h2⟩)
    · refine ⟨rawQuorum_left h1, fun P' hP' hsub => ?_⟩
      have h3 : P' ∩ keys r = P' := Finset.inter_eq_left.2 (hsub.trans h1.subset_keys)
      have h4 := rawQuorum_inter_left hd hu hP' (by rw [h3]; exact hP'.1)
      rw [h3] at h4
      exact h2 h4 hsub
    · refine ⟨rawQuorum_right h1, fun P' hP' hsub => ?_⟩
      have h3 : P' ∩ keys r' = P' := Finset.inter_eq_left.2 (hsub.trans h1.subset_keys)
      have h4 := rawQuorum_inter_right hd hu hP' (by rw [h3]; exact hP'.1)
      rw [h3] at h4
      exact h2 h4 hsub

/-- Blocking sets of raw FBASs. -/
def RawBlocking (r : RawFbas) (B : Finset PublicKey) : Prop :=
  ∀ P, RawQuorum r P → ∃ p, p ∈ P ∧ p ∈ B

theorem rawBlocking_append (hd : DistinctKeys (r ++ r')) (hu : Unrelated r r')
    (B : Finset PublicKey) :
    RawBlocking (r ++ r') B ↔ RawBlocking r (B ∩ keys r) ∧ RawBlocking r' (B ∩ keys r') := by
  constructor
  · intro h
    constructor
    · intro P hP
      obtain ⟨p, h1, h2⟩ := h P (rawQuorum_left hP)
      exact ⟨p, h1, Finset.mem_inter.2 ⟨h2, hP.subset_keys h1⟩⟩
    · intro P hP
      obtain ⟨p, h1, h2⟩ := h P (rawQuorum_right hP)
      exact ⟨p, h1, Finset.mem_inter.2 ⟨h2, hP.subset_keys h1⟩⟩
  · rintro ⟨h1, h2⟩ P hP
    rcases inter_or hd hu hP with h | h
    · obtain ⟨p, h3, h4⟩ := h1 _ h
      exact ⟨p, (Finset.mem_inter.1 h3).1, (Finset.mem_inter.1 h4).1⟩
    · obtain ⟨p, h3, h4⟩ := h2 _ h
      exact ⟨p, (Finset.mem_inter.1 h3).1, (Finset.mem_inter.1 h4).1⟩

theorem rawMinBlocking_subset {B : Finset PublicKey} (h : RawMinBlocking r B) : B ⊆ keys r := by
  have : B ⊆ B ∩ keys r := h.2 (fun P hP => by
    obtain ⟨p, h1, h2⟩ := h.1 P hP
    exact ⟨p, h1, Finset.mem_inter.2 ⟨h2, hP.subset_keys h1⟩⟩) Finset.inter_subset_left
  exact this.trans Finset.inter_subset_right

theorem union_inter_left {A B K K' : Finset PublicKey} (hA : A ⊆ K) (hB : B ⊆ K')
    (hK : Disjoint K K') : (A ∪ B) ∩ K = A := by
  ext p
  rw [Finset.mem_inter, Finset.mem_union]
  exact ⟨fun ⟨h1, h2⟩ => h1.resolve_right fun h => Finset.disjoint_left.1 hK h2 (hB h),
    fun h => ⟨.inl h, hA h⟩⟩

theorem rawMinBlocking_append (hd : DistinctKeys (r ++ r')) (hu : Unrelated r r')
    (B : Finset PublicKey) :
    RawMinBlocking (r ++ r') B ↔
      ∃ A A', RawMinBlocking r A ∧ RawMinBlocking r' A' ∧ B = A ∪ A' := by
  have hK := keys_disjoint hd
  constructor
  · intro h
    have hB : B = (B ∩ keys r) ∪ (B ∩ keys r') := by
      rw [← Finset.inter_union_distrib_left, eq_comm, Finset.inter_eq_left]
      refine (rawMinBlocking_subset h).trans fun p hp => ?_
      obtain ⟨n, hn, rfl⟩ := mem_keys.1 hp
      rw [Finset.mem_union, mem_keys, mem_keys]
      exact (List.mem_append.1 hn).imp (fun h => ⟨n, h, rfl⟩) (fun h => ⟨n, h, rfl⟩)
    obtain ⟨h1, h2⟩ := (rawBlocking_append hd hu B).1 h.1
    refine ⟨_, _, ⟨h1, fun A hA hsub => ?_⟩, ⟨h2, fun A hA hsub => ?_⟩, hB⟩
    · have h3 : RawBlocking (r ++ r') (A ∪ (B ∩ keys r')) := by
        rw [rawBlocking_append hd hu, union_inter_left (hsub.trans Finset.inter_subset_right)
          Finset.inter_subset_right hK, Finset.union_comm,
          union_inter_left Finset.inter_subset_right (hsub.trans Finset.inter_subset_right) hK.symm]
        exact ⟨hA, h2⟩
      have h4 : B ⊆ A ∪ (B ∩ keys r') := h.2 h3 (Finset.union_subset
        (hsub.trans Finset.inter_subset_left) Finset.inter_subset_left)
      intro p hp
      obtain ⟨hp1, hp2⟩ := Finset.mem_inter.1 hp
      rcases Finset.mem_union.1 (h4 hp1) with h5 | h5
      · exact h5
      · exact absurd (Finset.mem_inter.1 h5).2 (Finset.disjoint_left.1 hK hp2)
    · have h3 : RawBlocking (r ++ r') ((B ∩ keys r) ∪ A) := by
        rw [rawBlocking_append hd hu, union_inter_left Finset.inter_subset_right
          (hsub.trans Finset.inter_subset_right) hK, Finset.union_comm,
          union_inter_left (hsub.trans Finset.inter_subset_right) Finset.inter_subset_right hK.symm]
        exact ⟨h1, hA⟩
      have h4 : B ⊆ (B ∩ keys r) ∪ A := h.2 h3 (Finset.union_subset
        Finset.inter_subset_left (hsub.trans Finset.inter_subset_left))
      intro p hp
      obtain ⟨hp1, hp2⟩ := Finset.mem_inter.1 hp
      rcases Finset.mem_union.1 (h4 hp1) with h5 | h5
      · exact absurd hp2 (Finset.disjoint_left.1 hK (Finset.mem_inter.1 h5).2)
      · exact h5
  · rintro ⟨A, A', h1, h2, rfl⟩
    have s1 := rawMinBlocking_subset h1
    have s2 := rawMinBlocking_subset h2
    refine ⟨(rawBlocking_append hd hu _).2 ⟨?_, ?_⟩, fun B hB hsub => ?_⟩
    · rw [union_inter_left s1 s2 hK]; exact h1.1
    · rw [Finset.union_comm, union_inter_left s2 s1 hK.symm]; exact h2.1
    · obtain ⟨h3, h4⟩ := (rawBlocking_append hd hu B).1 hB
      have e1 : B ∩ keys r ⊆ A := by
        have := Finset.inter_subset_inter_right (u := keys r) hsub
        rwa [union_inter_left s1 s2 hK] at this
      have e2 : B ∩ keys r' ⊆ A' := by
        have := Finset.inter_subset_inter_right (u := keys r') hsub
        rwa [Finset.union_comm, union_inter_left s2 s1 hK.symm] at this
      exact Finset.union_subset ((h1.2 h3 e1).trans Finset.inter_subset_left)
        ((h2.2 h4 e2).trans Finset.inter_subset_left)

/-! ### Loaded FBASs -/

theorem named_rawMinQuorum (hd : DistinctKeys r) (P : Finset PublicKey) :
    Named (Fbas.fromRaw r) (IsMinQuorum (Fbas.fromRaw r)) P ↔ RawMinQuorum r P := by
  rw [named_minQuorum (distinct_fromRaw hd)]
  have : Named (Fbas.fromRaw r) (IsQuorum (Fbas.fromRaw r)) = RawQuorum r :=
    funext fun P => propext (named_quorum_iff hd P)
  rw [this]
  rfl

theorem exists_rawMinQuorum {P : Finset PublicKey} (h : RawQuorum r P) :
    ∃ P' ⊆ P, RawMinQuorum r P' :=
  exists_minimal_le_of_wellFoundedLT (P := RawQuorum r) P h

theorem named_rawMinBlocking (hd : DistinctKeys r) (B : Finset PublicKey) :
    Named (Fbas.fromRaw r) (IsMinBlocking (Fbas.fromRaw r)) B ↔ RawMinBlocking r B := by
  rw [named_minBlocking (distinct_fromRaw hd)]
  have : (fun B : Finset PublicKey => ∀ P, Named (Fbas.fromRaw r) (IsMinQuorum (Fbas.fromRaw r)) P →
      ∃ p, p ∈ P ∧ p ∈ B) = fun B => ∀ P, RawQuorum r P → ∃ p, p ∈ P ∧ p ∈ B := by
    funext B
    refine propext ⟨fun h P hP => ?_, fun h P hP => h P ((named_rawMinQuorum hd P).1 hP).1⟩
    obtain ⟨P', hs, hP'⟩ := exists_rawMinQuorum hP
    obtain ⟨p, h1, h2⟩ := h P' ((named_rawMinQuorum hd P').2 hP')
    exact ⟨p, hs h1, h2⟩
  rw [this]
  rfl

end FA
