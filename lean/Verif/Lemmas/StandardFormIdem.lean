import Verif.Lemmas.StandardForm

/-!
# Applying standard form twice; named sets of nodes
-/

namespace FA
open Spec QuorumSet

theorem rawMentions_iff {q : RawQuorumSet} {p : PublicKey} :
    RawMentions q p ↔ p ∈ q.validators ∨ ∃ q' ∈ q.inner, RawMentions q' p := by
  constructor
  · intro h
    cases h with
    | validator h => exact .inl h
    | inner hq h => exact .inr ⟨_, hq, h⟩
  · rintro (h | ⟨q', hq, h⟩)
    · exact .validator h
    · exact .inner hq h

theorem mentions_restrict {keep : PublicKey → Prop} {q : RawQuorumSet} {p : PublicKey} :
    RawMentions (restrict keep q) p ↔ RawMentions q p ∧ keep p := by
  classical
  induction q using RawQuorumSet.induct with
  | h t vs qs ih =>
    rw [restrict_eq, rawMentions_iff, rawMentions_iff]
    simp only [List.mem_filter, List.mem_map, decide_eq_true_eq]
    constructor
    · rintro (⟨h1, h2⟩ | ⟨q', ⟨⟨q, hq, rfl⟩, -⟩, hm⟩)
      · exact ⟨.inl h1, h2⟩
      · exact ⟨.inr ⟨q, hq, ((ih q hq).1 hm).1⟩, ((ih q hq).1 hm).2⟩
    · rintro ⟨h1 | ⟨q, hq, hm⟩, h2⟩
      · exact .inl ⟨h1, h2⟩
      · have := (ih q hq).2 ⟨hm, h2⟩
        refine .inr ⟨_, ⟨⟨q, hq, rfl⟩, ?_⟩, this⟩
        intro he
        rw [he, rawMentions_iff] at this
        simp at this

theorem not_rawSlice_empty (P : Finset PublicKey) : ¬ RawSlice P ⟨0, [], []⟩ := by
  classical
  rw [rawSlice_iff_count]
  simp

open Classical in
theorem slice_restrict {keep : PublicKey → Prop} {q : RawQuorumSet}
    {P : Finset PublicKey} : RawSlice P (restrict keep q) ↔ RawSlice (P.filter keep) q := by
  induction q using RawQuorumSet.induct with
  | h t vs qs ih =>
    rw [restrict_eq, rawSlice_iff_count, rawSlice_iff_count]
    dsimp only
    have h1 : (List.filter (fun x => decide (x ∈ P)) (vs.filter (fun p => decide (keep p)))).length =
        (vs.filter (fun x => decide (x ∈ P.filter keep))).length := by
      rw [List.filter_filter]
      congr 1
      refine List.filter_congr (fun x _ => ?_)
      simp only [Finset.mem_filter, Bool.decide_and]
    have h2 : (List.filter (fun q' => decide (RawSlice P q'))
        ((qs.map (restrict keep)).filter (fun q => decide (q ≠ ⟨0, [], []⟩)))).length =
        (qs.filter (fun q' => decide (RawSlice (P.filter keep) q'))).length := by
      rw [List.filter_filter]
      have : List.filter (fun a => decide (RawSlice P a) && decide (a ≠ ⟨0, [], []⟩))
          (qs.map (restrict keep)) =
          List.filter (fun a => decide (RawSlice P a)) (qs.map (restrict keep)) := by
        refine List.filter_congr (fun a _ => ?_)
        by_cases ha : RawSlice P a
        · have : a ≠ ⟨0, [], []⟩ := fun h => not_rawSlice_empty P (h ▸ ha)
          simp [ha, this]
        · simp [ha]
      rw [this, List.filter_map, List.length_map]
      congr 1
      refine List.filter_congr (fun q hq => ?_)
      simp only [Function.comp, ih q hq]
    rw [h1, h2]

theorem slice_raw_congr {q : RawQuorumSet} {P P' : Finset PublicKey}
    (h : ∀ p, RawMentions q p → (p ∈ P ↔ p ∈ P')) : RawSlice P q ↔ RawSlice P' q := by
  classical
  induction q using RawQuorumSet.induct with
  | h t vs qs ih =>
    rw [rawSlice_iff_count, rawSlice_iff_count]
    dsimp only
    rw [List.filter_congr (l := vs) (q := fun x => decide (x ∈ P'))
      (fun x hx => by simp only [h x (.validator hx)]),
      List.filter_congr (l := qs) (q := fun x => decide (RawSlice P' x))
      (fun x hx => by simp only [ih x hx (fun p hp => h p (.inner hx hp))])]

/-- Restricting a restricted quorum set to something that it satisfies anyway does nothing. -/
theorem restrict_restrict {keep keep' : PublicKey → Prop} {q : RawQuorumSet}
    (h : ∀ p, RawMentions (restrict keep q) p → keep' p) :
    restrict keep' (restrict keep q) = restrict keep q := by
  classical
  induction q using RawQuorumSet.induct with
  | h t vs qs ih =>
    have h' : ∀ p, RawMentions ⟨t, vs, qs⟩ p → keep p → keep' p :=
      fun p hp hk => h p (mentions_restrict.2 ⟨hp, hk⟩)
    rw [restrict_eq keep, restrict_eq keep']
    dsimp only
    congr 1
    · rw [List.filter_eq_self]
      intro p hp
      obtain ⟨h1, h2⟩ := List.mem_filter.1 hp
      simpa using h' p (.validator h1) (by simpa using h2)
    · have : (List.filter (fun q => decide (q ≠ ⟨0, [], []⟩)) (qs.map (restrict keep))).map
          (restrict keep') =
          List.filter (fun q => decide (q ≠ ⟨0, [], []⟩)) (qs.map (restrict keep)) := by
        conv_rhs => rw [← List.map_id (List.filter _ _)]
        refine List.map_congr_left (fun a ha => ?_)
        obtain ⟨q, hq, rfl⟩ := List.mem_map.1 (List.mem_filter.1 ha).1
        exact ih q hq (fun p hp => h' p (.inner hq (mentions_restrict.1 hp).1)
          (mentions_restrict.1 hp).2)
      rw [this, List.filter_filter]
      simp

/-! ### Saving a loaded FBAS -/

/-- All listed public keys are public keys of nodes. -/
def Known (r : RawFbas) : Prop :=
  ∀ n ∈ r, ∀ p, RawMentions n.quorumSet p → ∃ n' ∈ r, n'.publicKey = p

theorem toRaw_fromRaw_qset {r : RawFbas} (hd : DistinctKeys r) {q : RawQuorumSet}
    (h : ∀ p, RawMentions q p → ∃ n' ∈ r, n'.publicKey = p) :
    SameQSet (toRaw (Fbas.fromRaw r) (fromRaw (Fbas.rawIds r) q)) q := by
  induction q using RawQuorumSet.induct with
  | h t vs qs ih =>
    rw [fromRaw_eq, toRaw_eq]
    dsimp only
    have hid : ∀ p, (∃ n' ∈ r, n'.publicKey = p) → ∃ i, (Fbas.rawIds r).get? p = some i ∧
        (Fbas.fromRaw r).rawName i = p := by
      rintro p ⟨n, hn, rfl⟩
      obtain ⟨i, hi, rfl⟩ := List.getElem_of_mem hn
      have hg := List.getElem?_eq_getElem hi
      refine ⟨i, (rawIds_get? r _ i).2 ((lastIndex_of_distinct hd).2 ⟨_, hg, rfl⟩), ?_⟩
      rw [rawName_of_lt (by rw [fromRaw_length]; exact hi), nameOf_fromRaw hg]
    have h1 : ((sortIds (vs.filterMap (Fbas.rawIds r).get?)).map (Fbas.fromRaw r).rawName).Perm
        vs := by
      refine ((sortIds_perm _).map _).trans ?_
      have hvs : ∀ p ∈ vs, ∃ n' ∈ r, n'.publicKey = p := fun p hp => h p (.validator hp)
      clear h ih
      induction vs with
      | nil => exact .nil
      | cons v vs ih =>
        obtain ⟨i, hi, hn⟩ := hid v (hvs v List.mem_cons_self)
        rw [List.filterMap_cons_some hi, List.map_cons, hn]
        exact .cons _ (ih (fun p hp => hvs p (List.mem_cons_of_mem _ hp)))
    refine .trans (.validators _ _ h1) (.trans (.inner _ _ ((sortQs_perm _).map _)) ?_)
    refine SameQSet.of_forall₂ _ _ ?_
    rw [List.map_map, List.forall₂_map_left_iff]
    exact List.forall₂_same.2 (fun q hq => ih q hq (fun p hp => h p (.inner hq hp)))

theorem toRaw_fromRaw_same {r : RawFbas} (hd : DistinctKeys r) (h : Known r) :
    List.Forall₂ SameNode (Fbas.fromRaw r).toRaw r := by
  have : (Fbas.fromRaw r).toRaw = r.map (fun n => Node.toRaw (Fbas.fromRaw r)
      (Node.fromRaw (Fbas.rawIds r) n)) := by
    conv_lhs => rw [Fbas.toRaw, Fbas.fromRaw, List.map_map]
    rfl
  rw [this, List.forall₂_map_left_iff]
  exact List.forall₂_same.2 (fun n hn => ⟨rfl, toRaw_fromRaw_qset hd (h n hn)⟩)

theorem _root_.FA.Spec.Reordered.trans_same {r r' r'' : RawFbas} (h : List.Forall₂ SameNode r r')
    (h' : r'.Perm r'') : Reordered r r'' := by
  have h : Relation.Comp (List.Forall₂ SameNode) List.Perm r r'' := ⟨r', h, h'⟩
  rw [List.forall₂_comp_perm_eq_perm_comp_forall₂] at h
  exact h

theorem known_perm {r r' : RawFbas} (h : r.Perm r') (hk : Known r) : Known r' := by
  intro n hn p hp
  obtain ⟨n', hn', e⟩ := hk n (h.mem_iff.2 hn) p hp
  exact ⟨n', h.mem_iff.1 hn', e⟩

theorem distinct_perm {r r' : RawFbas} (h : r.Perm r') (hd : DistinctKeys r) : DistinctKeys r' :=
  ((h.map _).nodup_iff).1 hd

/-- Saving the FBAS loaded from a sorted raw FBAS gives a reordering of it. -/
theorem toRaw_sorted {r : RawFbas} (hd : DistinctKeys r) (h : Known r) :
    Reordered (Fbas.fromRaw (Fbas.sortByKey r)).toRaw r :=
  Reordered.trans_same (toRaw_fromRaw_same (distinct_perm (sortByKey_perm r).symm hd)
    (known_perm (sortByKey_perm r).symm h)) (sortByKey_perm r)

/-! ### Restricting to relevant nodes -/

/-- The part of the quorums of an FBAS that consists of nodes of quorums is known. -/
theorem known_restrict {r : RawFbas} {keep : PublicKey → Prop}
    (h : ∀ p, keep p → ∃ n ∈ r, n.publicKey = p) : Known (restrictFbas keep r) := by
  intro n hn p hp
  obtain ⟨m, hm, hk, rfl⟩ := mem_restrictFbas.1 hn
  have hkp := (mentions_restrict.1 hp).2
  obtain ⟨m', hm', rfl⟩ := h p hkp
  exact ⟨_, mem_restrictFbas.2 ⟨m', hm', hkp, rfl⟩, rfl⟩

theorem RawRelevant.node {r : RawFbas} {p : PublicKey} (h : RawRelevant r p) :
    ∃ n ∈ r, n.publicKey = p := by
  obtain ⟨⟨P, hP, hp⟩, -⟩ := h
  obtain ⟨n, hn, h1, -⟩ := hP.2 p hp
  exact ⟨n, hn, h1⟩

theorem rawQuorum_restrict {keep : PublicKey → Prop} {r : RawFbas} {P : Finset PublicKey} :
    RawQuorum (restrictFbas keep r) P ↔ RawQuorum r P ∧ ∀ p ∈ P, keep p := by
  classical
  constructor
  · rintro ⟨h1, h2⟩
    have hk : ∀ p ∈ P, keep p := by
      intro p hp
      obtain ⟨n, hn, rfl, -⟩ := h2 p hp
      obtain ⟨m, hm, hk, rfl⟩ := mem_restrictFbas.1 hn
      exact hk
    refine ⟨⟨h1, fun p hp => ?_⟩, hk⟩
    obtain ⟨n, hn, rfl, hs⟩ := h2 p hp
    obtain ⟨m, hm, -, rfl⟩ := mem_restrictFbas.1 hn
    refine ⟨m, hm, rfl, ?_⟩
    rw [slice_restrict, Finset.filter_true_of_mem hk] at hs
    exact hs
  · rintro ⟨⟨h1, h2⟩, hk⟩
    refine ⟨h1, fun p hp => ?_⟩
    obtain ⟨n, hn, rfl, hs⟩ := h2 p hp
    refine ⟨_, mem_restrictFbas.2 ⟨n, hn, hk _ hp, rfl⟩, rfl, ?_⟩
    rw [slice_restrict, Finset.filter_true_of_mem hk]
    exact hs

/-- If relevant nodes list only relevant nodes, all nodes stay relevant. -/
theorem relevant_restrict {r : RawFbas}
    (hc : ∀ a b, RawRelevant r a → RawTrusts r a b → RawRelevant r b) {p : PublicKey}
    (hp : RawRelevant r p) : RawRelevant (restrictFbas (RawRelevant r) r) p := by
  classical
  have hreach : ∀ a b, RawRelevant r a → RawReaches r a b →
      RawRelevant r b ∧ RawReaches (restrictFbas (RawRelevant r) r) a b := by
    intro a b ha hab
    induction hab with
    | refl => exact ⟨ha, .refl⟩
    | tail _ ht ih =>
      have hb := hc _ _ ih.1 ht
      refine ⟨hb, ih.2.tail ?_⟩
      obtain ⟨n, hn, rfl, hm⟩ := ht
      exact ⟨_, mem_restrictFbas.2 ⟨n, hn, ih.1, rfl⟩, rfl, mentions_restrict.2 ⟨hm, hb⟩⟩
  obtain ⟨⟨P, hP, hpP⟩, P', hP', hr⟩ := id hp
  refine ⟨⟨P.filter (RawRelevant r), ?_, Finset.mem_filter.2 ⟨hpP, hp⟩⟩, P', ?_, ?_⟩
  · rw [rawQuorum_restrict]
    refine ⟨⟨⟨p, Finset.mem_filter.2 ⟨hpP, hp⟩⟩, fun a ha => ?_⟩,
      fun a ha => (Finset.mem_filter.1 ha).2⟩
    obtain ⟨haP, ha⟩ := Finset.mem_filter.1 ha
    obtain ⟨n, hn, rfl, hs⟩ := hP.2 a haP
    refine ⟨n, hn, rfl, (slice_raw_congr (fun b hb => ?_)).1 hs⟩
    rw [Finset.mem_filter]
    exact ⟨fun h => ⟨h, hc _ _ ha ⟨n, hn, rfl, hb⟩⟩, fun h => h.1⟩
  · rw [rawQuorum_restrict]
    exact ⟨hP', fun a ha => (hreach p a hp (hr a ha).1).1⟩
  · intro a ha
    obtain ⟨h1, h2⟩ := hr a ha
    exact ⟨(hreach p a hp h1).2, (hreach a p (hreach p a hp h1).1 h2).2⟩

/-- The result of `to_standard_form`, in terms of its raw form. -/
noncomputable def standardForm (f : Fbas) : Fbas :=
  Fbas.fromRaw (Fbas.sortByKey (restrictFbas (RawRelevant f.toRaw) f.toRaw))

variable {f : Fbas}

theorem standardForm_distinct (hd : DistinctNames f) : DistinctNames (standardForm f) :=
  distinct_fromRaw (distinct_perm (sortByKey_perm _).symm
    (restrictFbas_distinct (toRaw_keys_distinct hd)))

theorem standardForm_wf (f : Fbas) : WF (standardForm f) := wf_fromRaw _

theorem standardForm_raw (hd : DistinctNames f) :
    Reordered (standardForm f).toRaw (restrictFbas (RawRelevant f.toRaw) f.toRaw) :=
  toRaw_sorted (restrictFbas_distinct (toRaw_keys_distinct hd))
    (known_restrict (fun _ hp => RawRelevant.node hp))

theorem restrictFbas_twice {keep keep' : PublicKey → Prop} {r : RawFbas}
    (h : ∀ p, keep p → keep' p) :
    restrictFbas keep' (restrictFbas keep r) = restrictFbas keep r := by
  classical
  conv_lhs => rw [restrictFbas]
  rw [List.filter_eq_self.2]
  · conv_rhs => rw [← List.map_id (restrictFbas keep r)]
    refine List.map_congr_left (fun n hn => ?_)
    obtain ⟨m, hm, hk, rfl⟩ := mem_restrictFbas.1 hn
    show RawNode.mk _ _ _ _ = RawNode.mk _ _ _ _
    congr 1
    exact restrict_restrict (fun p hp => h p (mentions_restrict.1 hp).2)
  · intro n hn
    obtain ⟨m, hm, hk, rfl⟩ := mem_restrictFbas.1 hn
    simpa using h _ hk

/-- If all nodes of the standard form are relevant in it, it is its own standard form. -/
theorem standardForm_idem (hd : DistinctNames f)
    (h : ∀ p, RawRelevant f.toRaw p → RawRelevant (standardForm f).toRaw p) :
    standardForm (standardForm f) = standardForm f := by
  have hR := standardForm_raw hd
  have hd' := standardForm_distinct hd
  conv_lhs => rw [standardForm]
  rw [fromRaw_sortByKey (restrictFbas_distinct (toRaw_keys_distinct hd'))
    (Reordered.restrict (toRaw_keys_distinct hd') hR),
    restrictFbas_twice h]
  rfl

/-! ### Named sets -/

/-- Minimal sets of nodes and minimal sets of names. -/
theorem minimal_names (hd : DistinctNames f) {X : NodeSet → Prop} {Y : Finset PublicKey → Prop}
    (hXY : ∀ S ⊆ f.allNodes, X S ↔ Y (names f S))
    (hX : ∀ S, X S → X (S ∩ f.allNodes))
    (hY : ∀ P, Y P → ∃ S ⊆ f.allNodes, names f S ⊆ P ∧ Y (names f S)) (P : Finset PublicKey) :
    (∃ S, Minimal X S ∧ names f S = P) ↔ Minimal Y P := by
  constructor
  · rintro ⟨S, hS, rfl⟩
    have hSs : S ⊆ f.allNodes := by
      have h1 := hS.le_of_le (hX S hS.prop) Finset.inter_subset_left
      exact h1.trans Finset.inter_subset_right
    refine ⟨(hXY S hSs).1 hS.prop, fun P' hP' hsub => ?_⟩
    obtain ⟨T, hT, hTP, hTY⟩ := hY P' hP'
    have : T ⊆ S := (names_subset_iff hd hT hSs).1 (hTP.trans hsub)
    have := hS.le_of_le ((hXY T hT).2 hTY) this
    exact (Finset.image_subset_image this).trans hTP
  · intro hP
    obtain ⟨S, hS, hSP, hSY⟩ := hY P hP.prop
    have he : names f S = P := hSP.antisymm (hP.le_of_le hSY hSP)
    refine ⟨S, ⟨(hXY S hS).2 hSY, fun T hT hTS => ?_⟩, he⟩
    have hTa := subset_trans hTS hS
    have h1 : names f T ⊆ P := (Finset.image_subset_image hTS).trans hSP
    have h2 := hP.le_of_le ((hXY T hTa).1 hT) h1
    rw [← he] at h2
    exact (names_subset_iff hd hS hTa).1 h2

end FA

namespace FA
open Spec QuorumSet

/-- The order of the nodes in a raw FBAS does not matter for the content of the loaded FBAS. -/
theorem toRaw_fromRaw_perm {r l : RawFbas} (hd : DistinctKeys r) (h : r.Perm l) :
    Reordered (Fbas.fromRaw r).toRaw (Fbas.fromRaw l).toRaw := by
  classical
  have hval : ∀ (r : RawFbas), DistinctKeys r → ∀ vs : List PublicKey,
      ((sortIds (vs.filterMap (Fbas.rawIds r).get?)).map (Fbas.fromRaw r).rawName).Perm
        (vs.filter (fun p => decide (∃ n ∈ r, n.publicKey = p))) := by
    intro r hd vs
    refine ((sortIds_perm _).map _).trans ?_
    induction vs with
    | nil => exact .nil
    | cons v vs ih =>
      cases hv : (Fbas.rawIds r).get? v with
      | none =>
        rw [List.filterMap_cons_none hv, List.filter_cons_of_neg]
        · exact ih
        · simp only [decide_eq_true_eq]
          rintro ⟨n, hn, rfl⟩
          obtain ⟨i, hi, rfl⟩ := List.getElem_of_mem hn
          have := (rawIds_get? r _ i).2 ((lastIndex_of_distinct hd).2
            ⟨_, List.getElem?_eq_getElem hi, rfl⟩)
          rw [this] at hv
          simp at hv
      | some i =>
        obtain ⟨n, hn, rfl⟩ := (lastIndex_of_distinct hd).1 ((rawIds_get? r _ i).1 hv)
        have hi : i < r.length := (List.getElem?_eq_some_iff.1 hn).1
        rw [List.filterMap_cons_some hv, List.map_cons, List.filter_cons_of_pos,
          rawName_of_lt (by rw [fromRaw_length]; exact hi), nameOf_fromRaw hn]
        · exact .cons _ ih
        · simpa using ⟨n, List.mem_of_getElem? hn, rfl⟩
  have hdl : DistinctKeys l := distinct_perm h hd
  have hq : ∀ q, SameQSet (toRaw (Fbas.fromRaw r) (fromRaw (Fbas.rawIds r) q))
      (toRaw (Fbas.fromRaw l) (fromRaw (Fbas.rawIds l) q)) := by
    intro q
    induction q using RawQuorumSet.induct with
    | h t vs qs ih =>
      rw [fromRaw_eq, toRaw_eq, fromRaw_eq, toRaw_eq]
      dsimp only
      have h1 := hval r hd vs
      have h2 := hval l hdl vs
      simp only [h.mem_iff] at h1
      refine .trans (.validators _ _ (h1.trans h2.symm)) ?_
      refine .trans (.inner _ _ ((sortQs_perm _).map _))
        (.trans ?_ (.inner _ _ ((sortQs_perm _).map _).symm))
      refine SameQSet.of_forall₂ _ _ ?_
      rw [List.map_map, List.map_map, List.forall₂_map_left_iff, List.forall₂_map_right_iff]
      exact List.forall₂_same.2 ih
  have hraw : ∀ r, (Fbas.fromRaw r).toRaw = r.map (fun n => Node.toRaw (Fbas.fromRaw r)
      (Node.fromRaw (Fbas.rawIds r) n)) := by
    intro r
    conv_lhs => rw [Fbas.toRaw, Fbas.fromRaw, List.map_map]
    rfl
  refine ⟨l.map (fun n => Node.toRaw (Fbas.fromRaw r) (Node.fromRaw (Fbas.rawIds r) n)), ?_, ?_⟩
  · rw [hraw]
    exact h.map _
  · rw [hraw, List.forall₂_map_left_iff, List.forall₂_map_right_iff]
    exact List.forall₂_same.2 (fun n _ => ⟨rfl, hq n.quorumSet⟩)

variable {f : Fbas}

theorem names_inter (hd : DistinctNames f) {S T : NodeSet} (hS : S ⊆ f.allNodes)
    (hT : T ⊆ f.allNodes) : names f S ∩ names f T = names f (S ∩ T) := by
  ext p
  rw [Finset.mem_inter]
  constructor
  · rintro ⟨h1, h2⟩
    obtain ⟨x, hx, rfl⟩ := Finset.mem_image.1 h1
    exact Finset.mem_image_of_mem _ (Finset.mem_inter.2
      ⟨hx, (mem_names hd hT (Finset.mem_range.1 (hS hx))).1 h2⟩)
  · intro h
    obtain ⟨x, hx, rfl⟩ := Finset.mem_image.1 h
    obtain ⟨h1, h2⟩ := Finset.mem_inter.1 hx
    exact ⟨Finset.mem_image_of_mem _ h1, Finset.mem_image_of_mem _ h2⟩

theorem named_minQuorum (hd : DistinctNames f) (P : Finset PublicKey) :
    Named f (IsMinQuorum f) P ↔ Minimal (Named f (IsQuorum f)) P := by
  refine minimal_names hd (X := IsQuorum f) (fun S hS => ?_) (fun S hS => ?_) (fun P hP => ?_) P
  · constructor
    · exact fun h => ⟨S, h, rfl⟩
    · rintro ⟨T, hT, he⟩
      rwa [← names_inj hd hT.subset_all hS he]
  · rwa [Finset.inter_eq_left.2 hS.subset_all]
  · obtain ⟨S, hS, rfl⟩ := hP
    exact ⟨S, hS.subset_all, Finset.Subset.refl _, S, hS, rfl⟩

theorem named_quorumIntersection (hd : DistinctNames f) : QuorumIntersection f ↔
    (∃ P, Named f (IsMinQuorum f) P) ∧
      ∀ P P', Named f (IsMinQuorum f) P → Named f (IsMinQuorum f) P' → ∃ p, p ∈ P ∧ p ∈ P' := by
  rw [quorumIntersection_iff_min]
  constructor
  · rintro ⟨⟨Q, hQ⟩, h⟩
    refine ⟨⟨_, Q, hQ, rfl⟩, ?_⟩
    rintro _ _ ⟨Q₁, h1, rfl⟩ ⟨Q₂, h2, rfl⟩
    obtain ⟨x, hx1, hx2⟩ := h _ _ h1 h2
    exact ⟨_, Finset.mem_image_of_mem _ hx1, Finset.mem_image_of_mem _ hx2⟩
  · rintro ⟨⟨_, Q, hQ, rfl⟩, h⟩
    refine ⟨⟨Q, hQ⟩, fun Q₁ Q₂ h1 h2 => ?_⟩
    obtain ⟨p, hp1, hp2⟩ := h _ _ ⟨Q₁, h1, rfl⟩ ⟨Q₂, h2, rfl⟩
    obtain ⟨x, hx, rfl⟩ := Finset.mem_image.1 hp1
    exact ⟨x, hx, (mem_names hd h2.prop.subset_all
      (Finset.mem_range.1 (h1.prop.subset_all hx))).1 hp2⟩

theorem named_minBlocking (hd : DistinctNames f) (P : Finset PublicKey) :
    Named f (IsMinBlocking f) P ↔
      Minimal (fun P => ∀ R, Named f (IsMinQuorum f) R → ∃ p, p ∈ R ∧ p ∈ P) P := by
  refine minimal_names hd (X := Blocking f) (fun S hS => ?_) (fun S hS => ?_) (fun P hP => ?_) P
  · rw [blocking_iff_min]
    constructor
    · rintro h _ ⟨Q, hQ, rfl⟩
      obtain ⟨x, h1, h2⟩ := h Q hQ
      exact ⟨_, Finset.mem_image_of_mem _ h1, Finset.mem_image_of_mem _ h2⟩
    · intro h Q hQ
      obtain ⟨p, h1, h2⟩ := h _ ⟨Q, hQ, rfl⟩
      obtain ⟨x, hx, rfl⟩ := Finset.mem_image.1 h1
      exact ⟨x, hx, (mem_names hd hS (Finset.mem_range.1 (hQ.prop.subset_all hx))).1 h2⟩
  · intro Q hQ
    obtain ⟨x, h1, h2⟩ := hS Q hQ
    exact ⟨x, h1, Finset.mem_inter.2 ⟨h2, hQ.subset_all h1⟩⟩
  · refine ⟨f.allNodes.filter (fun x => nameOf f x ∈ P), Finset.filter_subset _ _, ?_, ?_⟩
    · intro p hp
      obtain ⟨x, hx, rfl⟩ := Finset.mem_image.1 hp
      exact (Finset.mem_filter.1 hx).2
    · rintro _ ⟨Q, hQ, rfl⟩
      obtain ⟨p, h1, h2⟩ := hP _ ⟨Q, hQ, rfl⟩
      obtain ⟨x, hx, rfl⟩ := Finset.mem_image.1 h1
      exact ⟨_, h1, Finset.mem_image_of_mem _ (Finset.mem_filter.2
        ⟨hQ.prop.subset_all hx, h2⟩)⟩

theorem named_minSplitting (hd : DistinctNames f) (P : Finset PublicKey) :
    Named f (IsMinSplitting f) P ↔ Minimal (fun P => ∃ R R', Named f (IsMinQuorum f) R ∧
      Named f (IsMinQuorum f) R' ∧ R ≠ R' ∧ R ∩ R' ⊆ P) P := by
  refine minimal_names hd (X := Splitting f) (fun S hS => ?_) (fun S hS => ?_) (fun P hP => ?_) P
  · constructor
    · rintro ⟨Q₁, Q₂, h1, h2, hne, hsub⟩
      refine ⟨_, _, ⟨Q₁, h1, rfl⟩, ⟨Q₂, h2, rfl⟩, fun he => hne ?_, ?_⟩
      · exact names_inj hd h1.prop.subset_all h2.prop.subset_all he
      · rw [names_inter hd h1.prop.subset_all h2.prop.subset_all]
        exact Finset.image_subset_image hsub
    · rintro ⟨_, _, ⟨Q₁, h1, rfl⟩, ⟨Q₂, h2, rfl⟩, hne, hsub⟩
      refine ⟨Q₁, Q₂, h1, h2, fun he => hne (by rw [he]), ?_⟩
      rw [names_inter hd h1.prop.subset_all h2.prop.subset_all, names_subset_iff hd
        (Finset.inter_subset_left.trans h1.prop.subset_all) hS] at hsub
      exact hsub
  · obtain ⟨Q₁, Q₂, h1, h2, hne, hsub⟩ := hS
    exact ⟨Q₁, Q₂, h1, h2, hne, Finset.subset_inter hsub
      (Finset.inter_subset_left.trans h1.prop.subset_all)⟩
  · obtain ⟨_, _, ⟨Q₁, h1, rfl⟩, ⟨Q₂, h2, rfl⟩, hne, hsub⟩ := hP
    rw [names_inter hd h1.prop.subset_all h2.prop.subset_all] at hsub
    exact ⟨Q₁ ∩ Q₂, Finset.inter_subset_left.trans h1.prop.subset_all, hsub, _, _,
      ⟨Q₁, h1, rfl⟩, ⟨Q₂, h2, rfl⟩, hne,
      by rw [names_inter hd h1.prop.subset_all h2.prop.subset_all]⟩

theorem named_topTier {p : PublicKey} : (∃ x, InTopTier f x ∧ nameOf f x = p) ↔
    ∃ P, Named f (IsMinQuorum f) P ∧ p ∈ P := by
  constructor
  · rintro ⟨x, ⟨Q, hQ, hx⟩, rfl⟩
    exact ⟨_, ⟨Q, hQ, rfl⟩, Finset.mem_image_of_mem _ hx⟩
  · rintro ⟨_, ⟨Q, hQ, rfl⟩, hp⟩
    obtain ⟨x, hx, rfl⟩ := Finset.mem_image.1 hp
    exact ⟨x, ⟨Q, hQ, hx⟩, rfl⟩

end FA
