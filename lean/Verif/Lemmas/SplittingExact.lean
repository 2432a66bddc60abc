import Verif.Lemmas.SplittingSound
import Verif.Lemmas.FrontEndModes
import Verif.Lemmas.Results

/-! When are the splitting sets that are generated for a symmetric cluster exact? The converse of
`Spec.Majority.splitOk`. -/

namespace FA
open Spec QuorumSet

/-! ### Exact combinations are combinations of exact parts

`l` are the entries of a quorum set, `U` the nodes an entry lists, `code` the sets that are generated
for an entry and `X` the sets that are wanted for it (not only the minimal ones). -/

section
variable {κ : Type} [DecidableEq κ] {l : Finset κ} {U : κ → NodeSet} {code : κ → List NodeSet}
  {X : κ → NodeSet → Prop} {m : ℕ}

/-- Unions of generated sets for `m` entries. -/
def IsComb (l : Finset κ) (U : κ → NodeSet) (code : κ → List NodeSet) (m : ℕ) (T : NodeSet) : Prop :=
  ∃ C ⊆ l, C.card = m ∧ (∀ k ∈ C, T ∩ U k ∈ code k) ∧ T ⊆ C.biUnion U

/-- Sets that are good enough for `m` entries. -/
def ManyX (l : Finset κ) (X : κ → NodeSet → Prop) (m : ℕ) (S : NodeSet) : Prop :=
  ∃ C ⊆ l, C.card = m ∧ ∀ k ∈ C, X k S

structure Parts (l : Finset κ) (U : κ → NodeSet) (code : κ → List NodeSet)
    (X : κ → NodeSet → Prop) : Prop where
  disjoint : ∀ i ∈ l, ∀ j ∈ l, i ≠ j → Disjoint (U i) (U j)
  sub : ∀ i ∈ l, ∀ s ∈ code i, s ⊆ U i
  nonempty : ∀ i ∈ l, ∀ s ∈ code i, s.Nonempty
  sound : ∀ i ∈ l, ∀ s ∈ code i, X i s
  mono : ∀ i ∈ l, ∀ S T, S ⊆ T → X i S → X i T
  loc : ∀ i ∈ l, ∀ S, X i S → X i (S ∩ U i)

omit [DecidableEq κ] in
/-- Replacing the part of entry `j` by a set for entry `i`. -/
theorem Parts.inter_replace (h : Parts l U code X) {C : Finset κ} (hC : C ⊆ l) {i j : κ} (hi : i ∈ l)
    (hj : j ∈ C) (hij : i ∈ C → i = j) {S s : NodeSet} (hs : s ⊆ U i) :
    (∀ k ∈ C, k ≠ j → ((S \ U j) ∪ s) ∩ U k = S ∩ U k) ∧
      (S ⊆ C.biUnion U → ((S \ U j) ∪ s) ∩ U i = s) := by
  have hdj := h.disjoint
  constructor
  · intro k hk hkj
    have h1 : Disjoint (U j) (U k) := hdj j (hC hj) k (hC hk) (Ne.symm hkj)
    have h2 : Disjoint (U i) (U k) := hdj i hi k (hC hk) (by rintro rfl; exact hkj (hij hk))
    ext x
    have a1 : x ∈ U j → x ∉ U k := fun a => Finset.disjoint_left.1 h1 a
    have a2 : x ∈ U i → x ∉ U k := fun a => Finset.disjoint_left.1 h2 a
    have a3 := @hs x
    simp only [Finset.mem_inter, Finset.mem_union, Finset.mem_sdiff]
    tauto
  · intro hS
    ext x
    have a3 := @hs x
    simp only [Finset.mem_inter, Finset.mem_union, Finset.mem_sdiff]
    constructor
    · rintro ⟨⟨hx, hxj⟩ | hx, hxi⟩
      · obtain ⟨k, hk, hxk⟩ := Finset.mem_biUnion.1 (hS hx)
        by_cases hki : k = i
        · subst hki
          exact absurd (hij hk ▸ hxi) hxj
        · exact absurd hxi (Finset.disjoint_left.1 (hdj k (hC hk) i hi hki) hxk)
      · exact hx
    · exact fun hx => ⟨.inr hx, a3 hx⟩

/-- The entries of a combination are those whose nodes it contains. -/
theorem Parts.touch (h : Parts l U code X) {C : Finset κ} (hC : C ⊆ l) {T : NodeSet}
    (hc : ∀ k ∈ C, T ∩ U k ∈ code k) {D : Finset κ} (hD : D ⊆ l) (hT : T ⊆ D.biUnion U) : C ⊆ D := by
  intro k hk
  obtain ⟨x, hx⟩ := h.nonempty k (hC hk) _ (hc k hk)
  obtain ⟨hxT, hxk⟩ := Finset.mem_inter.1 hx
  obtain ⟨k', hk', hxk'⟩ := Finset.mem_biUnion.1 (hT hxT)
  by_contra hkD
  have : k' ≠ k := by rintro rfl; exact hkD hk'
  exact Finset.disjoint_left.1 (h.disjoint k' (hD hk') k (hC hk) this) hxk' hxk

theorem Parts.exact_of_exact (h : Parts l U code X) (hm : 1 ≤ m)
    (hex : ∀ S, IsComb l U code m S ↔ Minimal (ManyX l X m) S) {S₀ : NodeSet}
    (hS₀ : IsComb l U code m S₀) {i : κ} (hi : i ∈ l) (s : NodeSet) :
    s ∈ code i ↔ Minimal (X i) s := by
  obtain ⟨C, hC, hcard, hcode, hsub⟩ := hS₀
  -- the entry which is replaced
  obtain ⟨j, hj, hij⟩ : ∃ j ∈ C, (i ∈ C → i = j) := by
    by_cases hiC : i ∈ C
    · exact ⟨i, hiC, fun _ => rfl⟩
    · obtain ⟨j, hj⟩ := Finset.card_pos.1 (by omega : 0 < C.card)
      exact ⟨j, hj, fun h => absurd h hiC⟩
  have hi' : i ∉ C.erase j := by
    intro h'
    obtain ⟨h1, h2⟩ := Finset.mem_erase.1 h'
    exact h1 (hij h2)
  let C' : Finset κ := insert i (C.erase j)
  have hC' : C' ⊆ l := Finset.insert_subset hi ((Finset.erase_subset _ _).trans hC)
  have hcard' : C'.card = m := by
    rw [Finset.card_insert_of_notMem hi', Finset.card_erase_of_mem hj]
    omega
  have hXS : ∀ k ∈ C, X k S₀ := fun k hk =>
    h.mono k (hC hk) _ _ Finset.inter_subset_left (h.sound k (hC hk) _ (hcode k hk))
  have hsub' : ∀ s, s ⊆ U i → (S₀ \ U j) ∪ s ⊆ C'.biUnion U := by
    intro s hs x hx
    rw [Finset.mem_biUnion]
    rcases Finset.mem_union.1 hx with hx | hx
    · obtain ⟨hx, hxj⟩ := Finset.mem_sdiff.1 hx
      obtain ⟨k, hk, hxk⟩ := Finset.mem_biUnion.1 (hsub hx)
      exact ⟨k, Finset.mem_insert_of_mem (Finset.mem_erase.2 ⟨by rintro rfl; exact hxj hxk, hk⟩), hxk⟩
    · exact ⟨i, Finset.mem_insert_self _ _, hs hx⟩
  have hrep : ∀ s, s ⊆ U i → X i s → ManyX l X m ((S₀ \ U j) ∪ s) := by
    intro s hs hX
    obtain ⟨h1, _⟩ := h.inter_replace hC hi hj hij (S := S₀) hs
    refine ⟨C', hC', hcard', fun k hk => ?_⟩
    rcases Finset.mem_insert.1 hk with rfl | hk
    · exact h.mono k hi _ _ Finset.subset_union_right hX
    · obtain ⟨hkj, hk⟩ := Finset.mem_erase.1 hk
      have := h.loc k (hC hk) _ (hXS k hk)
      rw [← h1 k hk hkj] at this
      exact h.mono k (hC hk) _ _ Finset.inter_subset_left this
  have hcomplete : ∀ s, Minimal (X i) s → s ∈ code i := by
    intro s hs
    have hsU : s ⊆ U i := by
      have := hs.2 (h.loc i hi s hs.prop) Finset.inter_subset_left
      exact this.trans Finset.inter_subset_right
    obtain ⟨T, hT, hTsub⟩ := exists_minimal_sub (hrep s hsU hs.prop)
    obtain ⟨D, hD, hDcard, hDcode, hDsub⟩ := (hex T).2 hT
    have hDC : D ⊆ C' := h.touch hD hDcode hC' (hTsub.trans (hsub' s hsU))
    have hDeq : D = C' := Finset.eq_of_subset_of_card_le hDC (by omega)
    have hiD : i ∈ D := hDeq ▸ Finset.mem_insert_self _ _
    have hle : T ∩ U i ⊆ s := by
      rw [← (h.inter_replace hC hi hj hij (S := S₀) hsU).2 hsub]
      exact Finset.inter_subset_inter_right hTsub
    have heq := hs.eq_of_le (h.sound i hi _ (hDcode i hiD)) hle
    rw [← heq]
    exact hDcode i hiD
  refine ⟨fun hs => ?_, hcomplete s⟩
  have hsU := h.sub i hi s hs
  obtain ⟨s₀, hs₀, hle⟩ := exists_minimal_sub (h.sound i hi s hs)
  obtain ⟨h1, h2⟩ := h.inter_replace hC hi hj hij (S := S₀) hsU
  have hmin : Minimal (ManyX l X m) ((S₀ \ U j) ∪ s) := by
    rw [← hex]
    refine ⟨C', hC', hcard', fun k hk => ?_, hsub' s hsU⟩
    rcases Finset.mem_insert.1 hk with rfl | hk
    · rw [h2 hsub]; exact hs
    · obtain ⟨hkj, hk⟩ := Finset.mem_erase.1 hk
      rw [h1 k hk hkj]; exact hcode k hk
  have h3 := hmin.2 (hrep s₀ (hle.trans hsU) hs₀.prop) (Finset.union_subset_union_right hle)
  have h4 := (h.inter_replace hC hi hj hij (S := S₀) (hle.trans hsU)).2 hsub
  have : s ⊆ s₀ := by
    rw [← h4, ← h2 hsub]
    exact Finset.inter_subset_inter_right h3
  rw [Finset.Subset.antisymm this hle]
  exact hs₀

end

/-! ### The entries of a quorum set -/

/-- The entries of a quorum set. -/
def entriesOf (vs : List ℕ) (qs : List QuorumSet) : List (ℕ ⊕ QuorumSet) :=
  vs.map Sum.inl ++ qs.map Sum.inr

def entryNodes : ℕ ⊕ QuorumSet → NodeSet
  | .inl v => {v}
  | .inr q => q.containedNodes

def entrySets : ℕ ⊕ QuorumSet → List NodeSet
  | .inl v => [{v}]
  | .inr q => q.toSplittingSets

/-- Two slices (not necessarily different ones) have no other nodes in common. -/
def MeetIn (q : QuorumSet) (S : NodeSet) : Prop := ∃ P Q, Slice P q ∧ Slice Q q ∧ P ∩ Q ⊆ S

def entryMeet : ℕ ⊕ QuorumSet → NodeSet → Prop
  | .inl v, S => v ∈ S
  | .inr q, S => MeetIn q S

theorem MeetIn.slices {q : QuorumSet} {S : NodeSet} (h : MeetIn q S) :
    ∃ p ∈ q.toQuorumSlices, ∃ p' ∈ q.toQuorumSlices, p ∩ p' ⊆ S := by
  obtain ⟨P, Q, hP, hQ, hS⟩ := h
  obtain ⟨p, hp, h1⟩ := (toQuorumSlices_generates q P).2 hP
  obtain ⟨p', hp', h2⟩ := (toQuorumSlices_generates q Q).2 hQ
  exact ⟨p, hp, p', hp', (Finset.inter_subset_inter h1 h2).trans hS⟩

theorem splitGroups_eq (vs : List ℕ) (qs : List QuorumSet) :
    splitGroups vs qs = (entriesOf vs qs).map entrySets := by
  simp only [splitGroups, entriesOf, List.map_append, List.map_map]
  rfl

theorem supports_eq (vs : List ℕ) (qs : List QuorumSet) :
    supports vs qs = (entriesOf vs qs).map entryNodes := by
  simp only [supports, entriesOf, List.map_append, List.map_map]
  rfl

theorem mem_entriesOf {vs : List ℕ} {qs : List QuorumSet} {k : ℕ ⊕ QuorumSet} :
    k ∈ entriesOf vs qs ↔ (∃ v ∈ vs, k = .inl v) ∨ ∃ q ∈ qs, k = .inr q := by
  simp [entriesOf, eq_comm]

section
variable {t : ℕ} {vs : List ℕ} {qs : List QuorumSet}

theorem entryNodes_disjoint (hd : DupFree ⟨t, vs, qs⟩) :
    (entriesOf vs qs).Pairwise (fun a b => Disjoint (entryNodes a) (entryNodes b)) := by
  have := supports_disjoint hd
  simp only [supports_eq, List.pairwise_map] at this
  exact this

theorem Spec.Sane.exists_mention {q : QuorumSet} (h : Sane q) (hd : DupFree q) :
    q.containedNodes.Nonempty := by
  obtain ⟨p, hp⟩ := List.exists_mem_of_ne_nil _ h.slices_ne_nil
  obtain ⟨x, hx⟩ := (toQuorumSlices_good hd).nonempty p hp
  exact ⟨x, toQuorumSlices_subset hp hx⟩

theorem entries_nodup (hd : DupFree ⟨t, vs, qs⟩) (hs : ∀ q ∈ qs, Sane q) :
    (entriesOf vs qs).Nodup := by
  obtain ⟨_, _, _, _, hdi⟩ := id hd
  refine List.Pairwise.imp_of_mem ?_ (entryNodes_disjoint hd)
  intro a b ha hb hdis hab
  subst hab
  rw [Finset.disjoint_self_iff_empty] at hdis
  rcases mem_entriesOf.1 ha with ⟨v, _, rfl⟩ | ⟨q, hq, rfl⟩
  · simp [entryNodes] at hdis
  · exact ((hs q hq).exists_mention (hdi q hq)).ne_empty hdis

theorem entries_parts (hd : DupFree ⟨t, vs, qs⟩) (hs : ∀ q ∈ qs, Sane q) :
    Parts (entriesOf vs qs).toFinset entryNodes entrySets entryMeet := by
  obtain ⟨_, _, _, _, hdi⟩ := id hd
  simp only at hdi
  constructor
  · intro i hi j hj hij
    have : Std.Symm (fun a b : ℕ ⊕ QuorumSet => Disjoint (entryNodes a) (entryNodes b)) :=
      ⟨fun _ _ h => h.symm⟩
    exact (entryNodes_disjoint hd).forall (List.mem_toFinset.1 hi) (List.mem_toFinset.1 hj) hij
  · intro i hi s hsc
    rcases mem_entriesOf.1 (List.mem_toFinset.1 hi) with ⟨v, _, rfl⟩ | ⟨q, hq, rfl⟩
    · simp [entrySets] at hsc; simp [entryNodes, hsc]
    · obtain ⟨P, hP, Q, _, rfl, _⟩ := (hs q hq).meetsStrict (hdi q hq) s hsc
      exact Finset.inter_subset_left.trans (toQuorumSlices_subset hP)
  · intro i hi s hsc
    rcases mem_entriesOf.1 (List.mem_toFinset.1 hi) with ⟨v, _, rfl⟩ | ⟨q, hq, rfl⟩
    · simp [entrySets] at hsc; simp [hsc]
    · exact toSplittingSets_nonempty hsc
  · intro i hi s hsc
    rcases mem_entriesOf.1 (List.mem_toFinset.1 hi) with ⟨v, _, rfl⟩ | ⟨q, hq, rfl⟩
    · simp [entrySets] at hsc; simp [entryMeet, hsc]
    · obtain ⟨P, hP, Q, hQ, rfl, _⟩ := (hs q hq).meetsStrict (hdi q hq) s hsc
      exact ⟨P, Q, toQuorumSlices_slice hP, toQuorumSlices_slice hQ, Finset.Subset.refl _⟩
  · rintro (v | q) _ S T hST h
    · exact hST h
    · obtain ⟨P, Q, h1, h2, h3⟩ := h
      exact ⟨P, Q, h1, h2, h3.trans hST⟩
  · rintro (v | q) _ S h
    · simpa [entryMeet, entryNodes] using h
    · obtain ⟨p, hp, p', hp', hsub⟩ := MeetIn.slices h
      exact ⟨p, p', toQuorumSlices_slice hp, toQuorumSlices_slice hp', Finset.subset_inter hsub
        (Finset.inter_subset_left.trans (toQuorumSlices_subset hp))⟩

/-- The members of a union of sets from groups with disjoint nodes. -/
theorem forall₂_inter {κ : Type} {U : κ → NodeSet} {code : κ → List NodeSet} {c : List NodeSet}
    {ks : List κ} (hc : List.Forall₂ (fun s k => s ∈ code k) c ks)
    (hsub : ∀ k ∈ ks, ∀ s ∈ code k, s ⊆ U k) (hd : ks.Pairwise (fun a b => Disjoint (U a) (U b))) :
    (∀ k ∈ ks, unionAll c ∩ U k ∈ code k) ∧ ∀ x ∈ unionAll c, ∃ k ∈ ks, x ∈ U k := by
  induction hc with
  | nil => simp
  | @cons s k c ks hs hc ih =>
    rw [List.pairwise_cons] at hd
    obtain ⟨ih1, ih2⟩ := ih (fun k hk => hsub k (List.mem_cons_of_mem _ hk)) hd.2
    have hsU := hsub k List.mem_cons_self s hs
    rw [unionAll_cons]
    refine ⟨?_, ?_⟩
    · intro k' hk'
      rcases List.mem_cons.1 hk' with rfl | hk'
      · have : (s ∪ unionAll c) ∩ U k' = s := by
          ext x
          simp only [Finset.mem_inter, Finset.mem_union]
          constructor
          · rintro ⟨h | h, hx⟩
            · exact h
            · obtain ⟨k'', hk'', hx'⟩ := ih2 x h
              exact absurd hx' (Finset.disjoint_left.1 (hd.1 k'' hk'') hx)
          · exact fun h => ⟨.inl h, hsU h⟩
        rw [this]; exact hs
      · have : (s ∪ unionAll c) ∩ U k' = unionAll c ∩ U k' := by
          ext x
          simp only [Finset.mem_inter, Finset.mem_union]
          constructor
          · rintro ⟨h | h, hx⟩
            · exact absurd hx (Finset.disjoint_left.1 (hd.1 k' hk') (hsU h))
            · exact ⟨h, hx⟩
          · exact fun h => ⟨.inr h.1, h.2⟩
        rw [this]; exact ih1 k' hk'
    · intro x hx
      rcases Finset.mem_union.1 hx with h | h
      · exact ⟨k, List.mem_cons_self, hsU h⟩
      · obtain ⟨k', hk', hx'⟩ := ih2 x h
        exact ⟨k', List.mem_cons_of_mem _ hk', hx'⟩

theorem mem_combine_iff (hd : DupFree ⟨t, vs, qs⟩) (hs : ∀ q ∈ qs, Sane q) {m : ℕ} (hm : 1 ≤ m)
    (T : NodeSet) : T ∈ combineGroups m (splitGroups vs qs) ↔
      IsComb (entriesOf vs qs).toFinset entryNodes entrySets m T := by
  have hp := entries_parts hd hs
  have hnd := entries_nodup hd hs
  rw [mem_combineGroups, splitGroups_eq]
  constructor
  · rintro ⟨_, gs, c, h1, h2, hc, rfl⟩
    obtain ⟨ks, hks, rfl⟩ := List.sublist_map_iff.1 h1
    rw [List.forall₂_map_right_iff] at hc
    obtain ⟨h3, h4⟩ := forall₂_inter (U := entryNodes) hc
      (fun k hk => hp.sub k (List.mem_toFinset.2 (hks.subset hk))) ((entryNodes_disjoint hd).sublist hks)
    refine ⟨ks.toFinset, fun k hk => ?_, ?_, fun k hk => h3 k (List.mem_toFinset.1 hk), ?_⟩
    · exact List.mem_toFinset.2 (hks.subset (List.mem_toFinset.1 hk))
    · rw [List.toFinset_card_of_nodup (hnd.sublist hks)]; simpa using h2
    · intro x hx
      obtain ⟨k, hk, hxk⟩ := h4 x hx
      exact Finset.mem_biUnion.2 ⟨k, List.mem_toFinset.2 hk, hxk⟩
  · rintro ⟨C, hC, hcard, hcode, hsub⟩
    let ks := (entriesOf vs qs).filter (fun k => decide (k ∈ C))
    have hks : ks.toFinset = C := by
      ext k
      simp only [ks, List.mem_toFinset, List.mem_filter, decide_eq_true_eq]
      exact ⟨fun h => h.2, fun h => ⟨List.mem_toFinset.1 (hC h), h⟩⟩
    have hmem : ∀ k, k ∈ ks ↔ k ∈ C := fun k => by rw [← hks, List.mem_toFinset]
    refine ⟨hm, ks.map entrySets, ks.map (fun k => T ∩ entryNodes k),
      List.filter_sublist.map _, ?_, ?_, ?_⟩
    · rw [List.length_map, ← List.toFinset_card_of_nodup (hnd.sublist List.filter_sublist), hks, hcard]
    · rw [List.forall₂_map_left_iff, List.forall₂_map_right_iff, List.forall₂_same]
      exact fun k hk => hcode k ((hmem k).1 hk)
    · refine Finset.Subset.antisymm ?_ ?_
      · rw [unionAll_subset]
        intro s hs
        obtain ⟨k, _, rfl⟩ := List.mem_map.1 hs
        exact Finset.inter_subset_left
      · intro x hx
        obtain ⟨k, hk, hxk⟩ := Finset.mem_biUnion.1 (hsub hx)
        rw [mem_unionAll]
        exact ⟨_, List.mem_map.2 ⟨k, (hmem k).2 hk, rfl⟩, Finset.mem_inter.2 ⟨hx, hxk⟩⟩


theorem card_filter_entries (hnd : (entriesOf vs qs).Nodup) (p : ℕ ⊕ QuorumSet → Prop)
    [DecidablePred p] :
    ((entriesOf vs qs).toFinset.filter p).card =
      (vs.filter (fun v => decide (p (.inl v)))).length +
        (qs.filter (fun q => decide (p (.inr q)))).length := by
  have h1 : (entriesOf vs qs).toFinset.filter p =
      ((entriesOf vs qs).filter (fun k => decide (p k))).toFinset := by
    ext k; simp
  rw [h1, List.toFinset_card_of_nodup (hnd.sublist List.filter_sublist), entriesOf, List.filter_append,
    List.length_append, List.filter_map, List.filter_map, List.length_map, List.length_map]
  rfl

/-- The sets that contain what two slices have in common, entry by entry. -/
theorem meetIn_iff (hd : DupFree ⟨t, vs, qs⟩) (hs : ∀ q ∈ qs, Sane q) (hle : t ≤ vs.length + qs.length)
    (hmaj : vs.length + qs.length < 2 * t) (S : NodeSet) :
    MeetIn ⟨t, vs, qs⟩ S ↔ ManyX (entriesOf vs qs).toFinset entryMeet
      (splittingThreshold ⟨t, vs, qs⟩) S := by
  classical
  have hnd := entries_nodup hd hs
  have hk' := splittingThreshold_eq ⟨t, vs, qs⟩
  simp only at hk'
  obtain ⟨k, hk⟩ : ∃ k, splittingThreshold ⟨t, vs, qs⟩ = k + 1 :=
    ⟨splittingThreshold ⟨t, vs, qs⟩ - 1, by omega⟩
  constructor
  · rintro ⟨P, Q, hP, hQ, hPQ⟩
    have hcount : splittingThreshold ⟨t, vs, qs⟩ ≤
        ((entriesOf vs qs).toFinset.filter (fun k => entryMeet k S)).card := by
      rw [card_filter_entries hnd]
      rw [slice_iff_count] at hP hQ
      simp only at hP hQ
      have h1 : (vs.filter (fun x => decide (x ∈ P))).length +
          (vs.filter (fun x => decide (x ∈ Q))).length ≤
          vs.length + (vs.filter (fun x => decide (x ∈ P) && decide (x ∈ Q))).length :=
        filter_inter_length vs (fun x => decide (x ∈ P)) (fun x => decide (x ∈ Q))
      have h2 : (qs.filter (fun q' => decide (Slice P q'))).length +
          (qs.filter (fun q' => decide (Slice Q q'))).length ≤
          qs.length + (qs.filter (fun q' => decide (Slice P q') && decide (Slice Q q'))).length :=
        filter_inter_length qs (fun q' => decide (Slice P q')) (fun q' => decide (Slice Q q'))
      have hP' : t ≤ (vs.filter (fun x => decide (x ∈ P))).length +
        (qs.filter (fun q' => decide (Slice P q'))).length := by convert hP.2
      have hQ' : t ≤ (vs.filter (fun x => decide (x ∈ Q))).length +
        (qs.filter (fun q' => decide (Slice Q q'))).length := by convert hQ.2
      have h3 : (vs.filter (fun x => decide (x ∈ P) && decide (x ∈ Q))).length ≤
          (vs.filter (fun v => decide (entryMeet (.inl v) S))).length := by
        refine (List.monotone_filter_right vs (fun x hx => ?_)).length_le
        simp only [Bool.and_eq_true, decide_eq_true_eq] at hx ⊢
        exact hPQ (Finset.mem_inter.2 hx)
      have h4 : (qs.filter (fun q' => decide (Slice P q') && decide (Slice Q q'))).length ≤
          (qs.filter (fun q => decide (entryMeet (.inr q) S))).length := by
        refine (List.monotone_filter_right qs (fun x hx => ?_)).length_le
        simp only [Bool.and_eq_true, decide_eq_true_eq] at hx ⊢
        exact ⟨P, Q, hx.1, hx.2, hPQ⟩
      omega
    obtain ⟨C, hC, hcard⟩ := Finset.exists_subset_card_eq hcount
    exact ⟨C, hC.trans (Finset.filter_subset _ _), hcard,
      fun k hk => (Finset.mem_filter.1 (hC hk)).2⟩
  · rintro ⟨C, hC, hcard, hX⟩
    -- all intersections of two slices, for each entry
    let meets : List NodeSet → List NodeSet := fun g => g.flatMap (fun p => g.map (fun p' => p ∩ p'))
    have hne : ∀ g ∈ sliceGroups vs qs, g ≠ [] := by
      intro g hg
      rcases List.mem_append.1 hg with h | h
      · obtain ⟨v, _, rfl⟩ := List.mem_map.1 h; simp
      · obtain ⟨q', hq', rfl⟩ := List.mem_map.1 h
        exact (hs q' hq').slices_ne_nil
    have hm : List.Forall₂ Meets (sliceGroups vs qs) ((sliceGroups vs qs).map meets) := by
      rw [List.forall₂_map_right_iff, List.forall₂_same]
      intro g _ s hs
      obtain ⟨p, hp, hs⟩ := List.mem_flatMap.1 hs
      obtain ⟨p', hp', rfl⟩ := List.mem_map.1 hs
      exact ⟨p, hp, p', hp', rfl⟩
    have hT : ∃ T ∈ combineGroups (k + 1) ((sliceGroups vs qs).map meets), T ⊆ S := by
      rw [exists_combineGroups_subset]
      refine ⟨by omega, ?_⟩
      have hcount : C.card ≤ ((entriesOf vs qs).toFinset.filter (fun k => entryMeet k S)).card :=
        Finset.card_le_card (fun x hx => Finset.mem_filter.2 ⟨hC hx, hX x hx⟩)
      rw [card_filter_entries hnd] at hcount
      rw [sliceGroups, List.map_append, List.filter_append, List.length_append, List.map_map,
        List.map_map, List.filter_map, List.filter_map, List.length_map, List.length_map]
      have h3 : (vs.filter (fun v => decide (entryMeet (.inl v) S))).length ≤
          (vs.filter ((fun g : List NodeSet => g.any (fun s => decide (s ⊆ S))) ∘
            (meets ∘ fun v : ℕ => [({v} : NodeSet)]))).length := by
        refine (List.monotone_filter_right vs (fun x hx => ?_)).length_le
        have hx' := of_decide_eq_true hx
        have hx : x ∈ S := hx'
        simp [meets, hx]
      have h4 : (qs.filter (fun q => decide (entryMeet (.inr q) S))).length ≤
          (qs.filter ((fun g : List NodeSet => g.any (fun s => decide (s ⊆ S))) ∘
            (meets ∘ toQuorumSlices))).length := by
        refine (List.monotone_filter_right qs (fun x hx => ?_)).length_le
        have hx' := of_decide_eq_true hx
        have hx : MeetIn x S := hx'
        obtain ⟨p, hp, p', hp', hsub⟩ := hx.slices
        simp only [Function.comp, List.any_eq_true, decide_eq_true_eq, meets]
        exact ⟨p ∩ p', List.mem_flatMap.2 ⟨p, hp, List.mem_map.2 ⟨p', hp', rfl⟩⟩, hsub⟩
      omega
    obtain ⟨T, hT, hTS⟩ := hT
    have hTc := (combineGroups_perm k _).mem_iff.1 hT
    have hlen : ((sliceGroups vs qs).map meets).length = vs.length + qs.length := by
      simp [sliceGroups]
    obtain ⟨P, hP, Q, hQ, h1, _⟩ := comb'_meets (sliceGroups_good hd) (supports_disjoint hd)
      hne hm (a := vs.length + qs.length - t) (b := vs.length + qs.length - t) hTc (by omega)
    obtain ⟨t', rfl⟩ : ∃ t', t = t' + 1 := ⟨t - 1, by omega⟩
    have he : k + 1 + (vs.length + qs.length - (t' + 1)) = t' + 1 := by omega
    rw [he] at hP hQ
    refine ⟨P, Q, toQuorumSlices_slice ?_, toQuorumSlices_slice ?_, h1 ▸ hTS⟩
    · rw [toQuorumSlices_eq]; exact (combineGroups_perm t' _).mem_iff.2 hP
    · rw [toQuorumSlices_eq]; exact (combineGroups_perm t' _).mem_iff.2 hQ

/-- If the generated splitting sets are exactly the minimal ones, then a majority is needed and there
is a choice at all depths. -/
theorem majority_of_exact {q : QuorumSet} (hd : DupFree q) (hs : Sane q)
    (hex : ∀ S, S ∈ q.toSplittingSets ↔ Minimal (MeetIn q) S) : Majority q := by
  induction q using QuorumSet.induct with
  | h t vs qs ih =>
    obtain ⟨_, hpos, hle, hi⟩ := id hs
    simp only at hpos hle hi
    obtain ⟨_, _, _, _, hdi⟩ := id hd
    simp only at hdi
    -- something is generated
    obtain ⟨p, hp⟩ := List.exists_mem_of_ne_nil _ hs.slices_ne_nil
    obtain ⟨S₀, hS₀, _⟩ := exists_minimal_sub (P := MeetIn ⟨t, vs, qs⟩) (S := p)
      ⟨p, p, toQuorumSlices_slice hp, toQuorumSlices_slice hp, Finset.inter_subset_left⟩
    rw [← hex] at hS₀
    have hdrop : toSplittingSets ⟨t, vs, qs⟩ = potentialSplittingSets ⟨t, vs, qs⟩ := by
      rw [toSplittingSets_eq] at hS₀ ⊢
      unfold dropIfOneQuorum at hS₀ ⊢
      split at hS₀
      next s h => split at hS₀ <;> [cases hS₀; simp_all]
      next => rfl
    have hk' := splittingThreshold_eq ⟨t, vs, qs⟩
    simp only at hk'
    have hst : 1 ≤ splittingThreshold ⟨t, vs, qs⟩ := by
      by_contra h0
      rw [hdrop, potentialSplittingSets, show splittingThreshold ⟨t, vs, qs⟩ = 0 by omega] at hS₀
      exact not_mem_combineGroups_zero hS₀
    have hmaj : vs.length + qs.length < 2 * t := by omega
    have hinner : ∀ q' ∈ qs, Majority q' := by
      intro q' hq'
      refine ih q' hq' (hdi q' hq') (hi q' hq') (fun s => ?_)
      have hcomb : ∀ S, IsComb (entriesOf vs qs).toFinset entryNodes entrySets
          (splittingThreshold ⟨t, vs, qs⟩) S ↔
          Minimal (ManyX (entriesOf vs qs).toFinset entryMeet (splittingThreshold ⟨t, vs, qs⟩)) S := by
        intro S
        rw [← mem_combine_iff hd hi hst]
        have : MeetIn ⟨t, vs, qs⟩ = ManyX (entriesOf vs qs).toFinset entryMeet
            (splittingThreshold ⟨t, vs, qs⟩) := by
          funext S
          exact propext (meetIn_iff hd hi hle hmaj S)
        rw [← this, ← hex, hdrop]
        rfl
      have h0 : IsComb (entriesOf vs qs).toFinset entryNodes entrySets
          (splittingThreshold ⟨t, vs, qs⟩) S₀ := by
        rw [← mem_combine_iff hd hi hst]
        rw [hdrop] at hS₀
        exact hS₀
      exact (entries_parts hd hi).exact_of_exact hst hcomb h0 (i := .inr q')
        (List.mem_toFinset.2 (mem_entriesOf.2 (.inr ⟨q', hq', rfl⟩))) s
    refine .intro _ hmaj hle ?_ hinner
    by_contra hno
    simp only [not_or, not_lt, ne_eq, not_not] at hno
    obtain ⟨hn, hqs⟩ := hno
    subst hqs
    obtain ⟨P, hP, Q, hQ, _, hne⟩ := hs.meetsStrict hd S₀ hS₀
    simp only [List.length_nil, Nat.add_zero] at hle hn
    exact hne ((slices_of_no_choice (by omega) hP).trans (slices_of_no_choice (by omega) hQ).symm)

end

/-! ### From the cluster to the FBAS -/

/-- With quorum intersection, a symmetric cluster contains all minimal quorums; if there are two, then
sets are splitting iff they contain what two slices have in common. -/
theorem splitting_iff_meetIn {f : Fbas} (hqi : QuorumIntersection f) {Ks : List NodeSet}
    (hKs : IsClusters f Ks) {K : NodeSet} (hK : K ∈ Ks) {q : QuorumSet} (hKq : q.containedNodes = K)
    (hall : ∀ x ∈ K, f.qset x = q) (hd : DupFree q)
    (htwo : ∃ P Q, IsMinQuorum f P ∧ IsMinQuorum f Q ∧ P ≠ Q) (S : NodeSet) :
    Splitting f S ↔ MeetIn q S := by
  obtain ⟨Q₀, hQ₀, hQ₀K⟩ := hKs.quorum K hK
  have hin : ∀ P, IsMinQuorum f P → P ⊆ K := by
    intro P hP
    obtain ⟨x, hx, hx'⟩ := hqi.2 P Q₀ hP.prop hQ₀
    exact hKs.minQuorum_subset hK hP hx (hQ₀K hx')
  have hmem : ∀ P, P ∈ q.toQuorumSlices ↔ IsMinQuorum f P := fun P => by
    rw [mem_toQuorumSlices_iff_minQuorum hKq hall hd]
    exact ⟨fun h => h.1, fun h => ⟨h, hin P h⟩⟩
  constructor
  · rintro ⟨P, Q, hP, hQ, _, hS⟩
    exact ⟨P, Q, toQuorumSlices_slice ((hmem P).2 hP), toQuorumSlices_slice ((hmem Q).2 hQ), hS⟩
  · intro h
    obtain ⟨p, hp, p', hp', hS⟩ := h.slices
    rw [hmem] at hp hp'
    by_cases hpp : p = p'
    · subst hpp
      rw [Finset.inter_self] at hS
      obtain ⟨P, Q, hP, hQ, hne⟩ := htwo
      by_cases hpP : p = P
      · exact ⟨p, Q, hp, hQ, hpP ▸ hne, Finset.inter_subset_left.trans hS⟩
      · exact ⟨p, P, hp, hP, hpP, Finset.inter_subset_left.trans hS⟩
    · exact ⟨p, p', hp, hp', hpp, hS⟩

theorem splitting_exact_iff (env env' : Env) {f : Fbas} (hwf : WF f) (hqi : QuorumIntersection f)
    (hsym : ∀ q, SymCluster f q → DupFree q ∧ Sane q) {M L : List NodeSet}
    (hM : findMinimalQuorums env' f = .ok M) (hL : findMinimalSplittingSets env f M = .ok L) :
    (∀ S, S ∈ L ↔ IsMinSplitting f S) ↔
      (∀ q, SymCluster f q → ∀ q' ∈ q.inner, Majority q') ∨
        ∀ P Q, IsMinQuorum f P → IsMinQuorum f Q → P = Q := by
  by_cases htwo : ∃ P Q, IsMinQuorum f P ∧ IsMinQuorum f Q ∧ P ≠ Q
  · have hno : ¬ ∀ P Q, IsMinQuorum f P → IsMinQuorum f Q → P = Q := by
      obtain ⟨P, Q, hP, hQ, hne⟩ := htwo
      exact fun h => hne (h P Q hP hQ)
    rw [or_iff_left hno]
    constructor
    · intro hex q hq
      obtain ⟨hd, hs⟩ := hsym q hq
      have hKs := consensusClusters_spec env hwf
      obtain ⟨K, hK, h1, h2⟩ := hKs.symCluster_mem hq
      have hall : ∀ x ∈ K, f.qset x = q := h2 ▸ (symCluster_iff.1 hq).1
      have hfind : findSymmetricClusterInConsensusCluster f K = .ok (some q) := by
        rcases hKs.findSymmetric hK with ⟨q', e1, e2, _⟩ | ⟨_, e2⟩
        · rw [h1, List.singleton_inj] at e2
          rw [e1, e2]
        · rw [h1] at e2; cases e2
      have hnd : ¬ q.containsDuplicates = true := by
        rw [Bool.not_eq_true, containsDuplicates_iff, ← dupFree_iff]; exact hd
      have hone : ∀ K' ∈ consensusClusters env f, K' = K := by
        intro K' hK'
        obtain ⟨Q, hQ, hQK⟩ := hKs.quorum K hK
        obtain ⟨Q', hQ', hQK'⟩ := hKs.quorum K' hK'
        obtain ⟨x, hx, hx'⟩ := hqi.2 Q Q' hQ hQ'
        by_contra hne
        have : Std.Symm (Disjoint (α := NodeSet)) := ⟨fun _ _ h => h.symm⟩
        exact Finset.disjoint_left.1 (hKs.disjoint.forall hK' hK hne) (hQK' hx') (hQK hx)
      have hLmem : ∀ S, S ∈ L ↔ S ∈ q.toSplittingSets := by
        intro S
        rw [findMinimalSplittingSets_eq env hwf] at hL
        rw [← Except.ok.inj hL, sort_mem, List.mem_flatMap]
        have hcl : clusterSplitting env f M K = q.toSplittingSets := by
          unfold clusterSplitting
          rw [hfind]
          simp only [toMinimalSplittingSets, if_neg hnd]
        constructor
        · rintro ⟨K', hK', hS⟩
          rw [hone K' hK', hcl] at hS
          exact hS
        · exact fun hS => ⟨K, hK, by rw [hcl]; exact hS⟩
      have hpred : Splitting f = MeetIn q := by
        funext S
        exact propext (splitting_iff_meetIn hqi hKs hK h2 hall hd htwo S)
      obtain ⟨_, _, _, _, hi⟩ := majority_of_exact hd hs (fun S => by
        rw [← hLmem, hex, IsMinSplitting, hpred])
      exact hi
    · intro hmaj S
      have hle : ∀ q, SymCluster f q → q.threshold ≤ q.validators.length + q.inner.length := by
        intro q hq
        obtain ⟨_, _, hle, _⟩ := (hsym q hq).2
        exact hle
      obtain ⟨L', h1, h2, _⟩ := findMinimalSplittingSets_spec env env' hwf hM (fun q hq =>
        ⟨(hsym q hq).1, sym_majority hqi hq (hsym q hq).1 (hle q hq) (hmaj q hq), hle q hq, hmaj q hq⟩)
      rw [hL] at h1
      rw [Except.ok.inj h1, h2, kMeet_iff (consensusClusters_spec env hwf), minSplitting_iff hqi]
  · push Not at htwo
    refine ⟨fun _ => .inr htwo, fun _ S => ?_⟩
    constructor
    · intro hS
      obtain ⟨P, Q, hP, hQ, hne, _⟩ := findMinimalSplittingSets_sound env env' hwf hM hsym hL hS
      exact absurd (htwo P Q hP hQ) hne
    · rintro ⟨⟨P, Q, hP, hQ, hne, _⟩, _⟩
      exact absurd (htwo P Q hP hQ) hne

end FA
