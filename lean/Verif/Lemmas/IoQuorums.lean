import Verif.Lemmas.Io

/-!
# Quorums of raw FBASs
-/

namespace FA
open Spec QuorumSet

theorem rawSlice_iff_count (P : Finset PublicKey) (q : RawQuorumSet) [DecidablePred (RawSlice P)] :
    RawSlice P q ↔ 1 ≤ q.threshold ∧
      q.threshold ≤ (q.validators.filter (fun x => decide (x ∈ P))).length
        + (q.inner.filter (fun q' => decide (RawSlice P q'))).length := by
  constructor
  · rintro ⟨_, vs, qs, hvs, hqs, hin, hsat, hpos, hlen⟩
    refine ⟨hpos, ?_⟩
    have h1 : vs.Sublist (q.validators.filter (fun x => decide (x ∈ P))) := by
      have := hvs.filter (fun x => decide (x ∈ P))
      rwa [List.filter_eq_self.2 (by simpa using hin)] at this
    have h2 : qs.Sublist (q.inner.filter (fun q' => decide (RawSlice P q'))) := by
      have := hqs.filter (fun q' => decide (RawSlice P q'))
      rwa [List.filter_eq_self.2 (by simpa using hsat)] at this
    have := Nat.add_le_add h1.length_le h2.length_le
    rw [hlen] at this
    exact this
  · rintro ⟨hpos, hle⟩
    refine .intro q
      ((q.validators.filter (fun x => decide (x ∈ P))).take q.threshold)
      ((q.inner.filter (fun q' => decide (RawSlice P q'))).take (q.threshold -
        ((q.validators.filter (fun x => decide (x ∈ P))).take q.threshold).length))
      ((List.take_sublist _ _).trans List.filter_sublist)
      ((List.take_sublist _ _).trans List.filter_sublist) ?_ ?_ hpos ?_
    · intro v hv
      simpa using List.of_mem_filter (List.mem_of_mem_take hv)
    · intro q' hq'
      simpa using List.of_mem_filter (List.mem_of_mem_take hq')
    · simp only [List.length_take]
      omega

theorem slice_fromRaw {m : Map PublicKey ℕ} {P : Finset PublicKey} {S : NodeSet} {q : RawQuorumSet}
    (h : ∀ p i, RawMentions q p → m.get? p = some i → (p ∈ P ↔ i ∈ S))
    (hk : ∀ p ∈ P, RawMentions q p → ∃ i, m.get? p = some i) :
    Slice S (fromRaw m q) ↔ RawSlice P q := by
  classical
  induction q using RawQuorumSet.induct with
  | h t vs qs ih =>
    rw [slice_iff_count, rawSlice_iff_count, fromRaw_eq]
    dsimp only
    have h1 : ((sortIds (vs.filterMap m.get?)).filter (fun x => decide (x ∈ S))).length =
        (vs.filter (fun x => decide (x ∈ P))).length := by
      rw [((sortIds_perm _).filter _).length_eq]
      have hv : ∀ p i, p ∈ vs → m.get? p = some i → (p ∈ P ↔ i ∈ S) :=
        fun p i hp => h p i (.validator hp)
      have hkv : ∀ p ∈ P, p ∈ vs → ∃ i, m.get? p = some i := fun p hp hpv => hk p hp (.validator hpv)
      clear h hk ih
      induction vs with
      | nil => rfl
      | cons v vs ihv =>
        have ihv' := ihv (fun p i hp => hv p i (List.mem_cons_of_mem _ hp))
          (fun p hp hpv => hkv p hp (List.mem_cons_of_mem _ hpv))
        rw [List.filterMap_cons, List.filter_cons]
        cases hm : m.get? v with
        | none =>
          have : v ∉ P := fun hc => by
            obtain ⟨i, hi⟩ := hkv v hc List.mem_cons_self
            rw [hm] at hi; cases hi
          rw [if_neg (by simpa using this)]
          exact ihv'
        | some i =>
          dsimp only
          rw [List.filter_cons]
          have := hv v i List.mem_cons_self hm
          by_cases hi : i ∈ S
          · rw [if_pos (by simpa using hi), if_pos (by simpa using this.2 hi), List.length_cons,
              List.length_cons, ihv']
          · rw [if_neg (by simpa using hi), if_neg (by simpa using fun hc => hi (this.1 hc)), ihv']
    have h2 : ((sortQs (qs.map (fromRaw m))).filter (fun q' => decide (Slice S q'))).length =
        (qs.filter (fun q' => decide (RawSlice P q'))).length := by
      rw [((sortQs_perm _).filter _).length_eq, List.filter_map, List.length_map]
      congr 1
      refine List.filter_congr (fun q hq => ?_)
      simp only [Function.comp, ih q hq (fun p i hp => h p i (.inner hq hp))
        (fun p hp hpm => hk p hp (.inner hq hpm))]
    rw [h1, h2]

theorem slice_toRaw {f : Fbas} {P : Finset PublicKey} {S : NodeSet} {q : QuorumSet}
    (h : ∀ x, Mentions q x → (f.rawName x ∈ P ↔ x ∈ S)) : RawSlice P (toRaw f q) ↔ Slice S q := by
  classical
  induction q using QuorumSet.induct with
  | h t vs qs ih =>
    rw [slice_iff_count, rawSlice_iff_count, toRaw_eq]
    dsimp only
    rw [List.filter_map, List.length_map, List.filter_map, List.length_map]
    have h1 : vs.filter ((fun x => decide (x ∈ P)) ∘ f.rawName) =
        vs.filter (fun x => decide (x ∈ S)) :=
      List.filter_congr (fun x hx => by simp only [Function.comp, h x (.validator hx)])
    have h2 : qs.filter ((fun q' => decide (RawSlice P q')) ∘ toRaw f) =
        qs.filter (fun q' => decide (Slice S q')) :=
      List.filter_congr (fun q hq => by
        simp only [Function.comp, ih q hq (fun x hx => h x (.inner hq hx))])
    rw [h1, h2]

theorem mentions_toRaw {f : Fbas} {q : QuorumSet} {p : PublicKey} :
    RawMentions (toRaw f q) p ↔ ∃ x, Mentions q x ∧ f.rawName x = p := by
  induction q using QuorumSet.induct with
  | h t vs qs ih =>
    rw [toRaw_eq]
    constructor
    · intro h
      cases h with
      | validator h =>
        obtain ⟨x, hx, rfl⟩ := List.mem_map.1 h
        exact ⟨x, .validator hx, rfl⟩
      | inner hq h =>
        obtain ⟨q, hqq, rfl⟩ := List.mem_map.1 hq
        obtain ⟨x, hx, rfl⟩ := (ih q hqq).1 h
        exact ⟨x, .inner hqq hx, rfl⟩
    · rintro ⟨x, hx, rfl⟩
      cases hx with
      | validator h => exact .validator (List.mem_map_of_mem h)
      | inner hq h => exact .inner (List.mem_map_of_mem hq) ((ih _ hq).2 ⟨x, h, rfl⟩)

theorem nameOf_inj {f : Fbas} (hd : DistinctNames f) {x y : ℕ} (hx : x < f.nodes.length)
    (hy : y < f.nodes.length) (h : nameOf f x = nameOf f y) : x = y := by
  unfold nameOf at h
  rw [List.getElem?_eq_getElem hx, List.getElem?_eq_getElem hy] at h
  have := (List.nodup_iff_injective_get.1 hd)
  have hxy := @this ⟨x, by simpa using hx⟩ ⟨y, by simpa using hy⟩ (by simpa using h)
  simpa using hxy

theorem mem_names {f : Fbas} (hd : DistinctNames f) {S : NodeSet} (hS : S ⊆ f.allNodes) {x : ℕ}
    (hx : x < f.nodes.length) : nameOf f x ∈ names f S ↔ x ∈ S := by
  unfold names
  rw [Finset.mem_image]
  constructor
  · rintro ⟨y, hy, h⟩
    rw [← nameOf_inj hd (Finset.mem_range.1 (hS hy)) hx h]; exact hy
  · intro h; exact ⟨x, h, rfl⟩

theorem names_subset_iff {f : Fbas} (hd : DistinctNames f) {S T : NodeSet} (hS : S ⊆ f.allNodes)
    (hT : T ⊆ f.allNodes) : names f S ⊆ names f T ↔ S ⊆ T := by
  constructor
  · intro h x hx
    exact (mem_names hd hT (Finset.mem_range.1 (hS hx))).1 (h (Finset.mem_image_of_mem _ hx))
  · intro h; exact Finset.image_subset_image h

theorem names_inj {f : Fbas} (hd : DistinctNames f) {S T : NodeSet} (hS : S ⊆ f.allNodes)
    (hT : T ⊆ f.allNodes) (h : names f S = names f T) : S = T :=
  ((names_subset_iff hd hS hT).1 (h ▸ Finset.Subset.refl _)).antisymm
    ((names_subset_iff hd hT hS).1 (h ▸ Finset.Subset.refl _))

/-- A set of public keys of nodes is the set of names of some nodes. -/
theorem exists_names {f : Fbas} {P : Finset PublicKey}
    (h : ∀ p ∈ P, ∃ n ∈ f.nodes, n.publicKey = p) : ∃ S ⊆ f.allNodes, names f S = P := by
  refine ⟨f.allNodes.filter (fun x => nameOf f x ∈ P), Finset.filter_subset _ _, ?_⟩
  ext p
  unfold names
  rw [Finset.mem_image]
  constructor
  · rintro ⟨x, hx, rfl⟩
    exact (Finset.mem_filter.1 hx).2
  · intro hp
    obtain ⟨n, hn, rfl⟩ := h p hp
    obtain ⟨i, hi, rfl⟩ := List.getElem_of_mem hn
    have : nameOf f i = f.nodes[i].publicKey := by
      unfold nameOf; rw [List.getElem?_eq_getElem hi]
    exact ⟨i, Finset.mem_filter.2 ⟨Finset.mem_range.2 hi, this ▸ hp⟩, this⟩

theorem rawQuorum_toRaw {f : Fbas} (hd : DistinctNames f) (hwf : WF f) {Q : NodeSet}
    (hQ : Q ⊆ f.allNodes) : RawQuorum f.toRaw (names f Q) ↔ IsQuorum f Q := by
  unfold RawQuorum IsQuorum
  refine and_congr (by unfold names; rw [Finset.image_nonempty]) ?_
  have hs : ∀ n ∈ f.nodes, (RawSlice (names f Q) (toRaw f n.quorumSet) ↔ Slice Q n.quorumSet) :=
    fun n hn => slice_toRaw (fun x hx => by
      have := wf_mentions hwf hn hx
      rw [rawName_of_lt this, mem_names hd hQ this])
  constructor
  · intro h x hx
    obtain ⟨n, hn, hp, hsl⟩ := h _ (Finset.mem_image_of_mem (nameOf f) hx)
    obtain ⟨n', hn', rfl⟩ := List.mem_map.1 hn
    obtain ⟨i, hi, rfl⟩ := List.getElem_of_mem hn'
    have hix : i = x := by
      refine nameOf_inj hd hi (Finset.mem_range.1 (hQ hx)) (Eq.trans ?_ hp)
      unfold nameOf; rw [List.getElem?_eq_getElem hi]; rfl
    subst hix
    exact ⟨_, ⟨_, List.getElem?_eq_getElem hi, rfl⟩, (hs _ hn').1 hsl⟩
  · intro h p hp
    obtain ⟨x, hx, rfl⟩ := Finset.mem_image.1 hp
    obtain ⟨q, ⟨n, hn, rfl⟩, hsl⟩ := h x hx
    have hmem := List.mem_of_getElem? hn
    refine ⟨n.toRaw f, List.mem_map_of_mem hmem, ?_, (hs n hmem).2 hsl⟩
    unfold nameOf; rw [hn]; rfl

theorem distinct_fromRaw {r : RawFbas} (hd : DistinctKeys r) : DistinctNames (Fbas.fromRaw r) := by
  unfold DistinctNames
  rw [keys_fromRaw]
  exact hd

theorem fromRaw_length (r : RawFbas) : (Fbas.fromRaw r).nodes.length = r.length := by
  unfold Fbas.fromRaw; simp

theorem wf_fromRaw (r : RawFbas) : WF (Fbas.fromRaw r) := by
  rintro x y ⟨q, ⟨n, hn, rfl⟩, hm⟩
  rw [fromRaw_length]
  obtain ⟨n', -, rfl⟩ := List.mem_map.1 (List.mem_of_getElem? hn)
  obtain ⟨p, -, hp⟩ := mentions_fromRaw.1 hm
  exact LastIndex.lt ((rawIds_get? r p y).1 hp)

/-- Quorums of a loaded FBAS are the quorums the raw FBAS has. -/
theorem rawQuorum_fromRaw {r : RawFbas} (hd : DistinctKeys r) {Q : NodeSet}
    (hQ : Q ⊆ (Fbas.fromRaw r).allNodes) :
    RawQuorum r (names (Fbas.fromRaw r) Q) ↔ IsQuorum (Fbas.fromRaw r) Q := by
  unfold RawQuorum IsQuorum
  refine and_congr (by unfold names; rw [Finset.image_nonempty]) ?_
  have hdf := distinct_fromRaw hd
  have hs : ∀ n ∈ r, (RawSlice (names (Fbas.fromRaw r) Q) n.quorumSet ↔
      Slice Q (fromRaw (Fbas.rawIds r) n.quorumSet)) := by
    intro n hn
    refine (slice_fromRaw ?_ ?_).symm
    · intro p i _ hpi
      have hl := (rawIds_get? r p i).1 hpi
      obtain ⟨n', h1, h2⟩ := hl.1
      rw [← h2, ← nameOf_fromRaw h1, mem_names hdf hQ (by rw [fromRaw_length]; exact LastIndex.lt hl)]
    · intro p hp _
      obtain ⟨x, hx, rfl⟩ := Finset.mem_image.1 hp
      have hlt := Finset.mem_range.1 (hQ hx)
      rw [fromRaw_length] at hlt
      refine ⟨x, (rawIds_get? _ _ _).2 ((lastIndex_of_distinct hd).2
        ⟨_, List.getElem?_eq_getElem hlt, (nameOf_fromRaw (List.getElem?_eq_getElem hlt)).symm⟩)⟩
  constructor
  · intro h x hx
    obtain ⟨n, hn, hp, hsl⟩ := h _ (Finset.mem_image_of_mem (nameOf _) hx)
    obtain ⟨i, hi, rfl⟩ := List.getElem_of_mem hn
    have hix : i = x := by
      refine nameOf_inj hdf (by rw [fromRaw_length]; exact hi) (Finset.mem_range.1 (hQ hx)) ?_
      rw [nameOf_fromRaw (List.getElem?_eq_getElem hi), hp]
    subst hix
    refine ⟨_, ⟨Node.fromRaw (Fbas.rawIds r) r[i], ?_, rfl⟩, (hs _ hn).1 hsl⟩
    unfold Fbas.fromRaw
    dsimp only
    rw [List.getElem?_map, List.getElem?_eq_getElem hi]
    rfl
  · intro h p hp
    obtain ⟨x, hx, rfl⟩ := Finset.mem_image.1 hp
    obtain ⟨q, ⟨n, hn, rfl⟩, hsl⟩ := h x hx
    unfold Fbas.fromRaw at hn
    dsimp only at hn
    rw [List.getElem?_map] at hn
    obtain ⟨n', hn', rfl⟩ := Option.map_eq_some_iff.1 hn
    have hmem := List.mem_of_getElem? hn'
    exact ⟨n', hmem, (nameOf_fromRaw hn').symm, (hs n' hmem).2 hsl⟩

end FA
