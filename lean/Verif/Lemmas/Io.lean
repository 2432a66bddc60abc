import Verif.SpecRaw
import Verif.Lemmas.QsetOrder
import Verif.Lemmas.Fbas

/-!
# Lemmas about conversion from and to raw structures
-/

namespace FA
open Spec

theorem RawQuorumSet.induct {P : RawQuorumSet → Prop}
    (h : ∀ t vs qs, (∀ q ∈ qs, P q) → P ⟨t, vs, qs⟩) : ∀ q, P q := by
  intro q
  induction q using RawQuorumSet.rec (motive_2 := fun l => ∀ q ∈ l, P q) with
  | mk t vs qs ih => exact h t vs qs ih
  | nil => rename_i h'; simp at h'
  | cons q qs ih1 ih2 =>
    rename_i q' hq'
    rcases List.mem_cons.1 hq' with rfl | hq'
    · exact ih1
    · exact ih2 q' hq'

namespace QuorumSet

theorem fromRawList_eq (m : Map PublicKey ℕ) (qs : List RawQuorumSet) :
    fromRawList m qs = qs.map (fromRaw m) := by
  induction qs with
  | nil => rfl
  | cons q qs ih => rw [fromRawList, ih, List.map_cons]

theorem toRawList_eq (f : Fbas) (qs : List QuorumSet) : toRawList f qs = qs.map (toRaw f) := by
  induction qs with
  | nil => rfl
  | cons q qs ih => rw [toRawList, ih, List.map_cons]

theorem fromRaw_eq (m : Map PublicKey ℕ) (q : RawQuorumSet) :
    fromRaw m q = ⟨q.threshold, sortIds (q.validators.filterMap m.get?),
      sortQs (q.inner.map (fromRaw m))⟩ := by
  obtain ⟨t, vs, qs⟩ := q
  rw [fromRaw, fromRawList_eq]

theorem toRaw_eq (f : Fbas) (q : QuorumSet) :
    toRaw f q = ⟨q.threshold, q.validators.map f.rawName, q.inner.map (toRaw f)⟩ := by
  obtain ⟨t, vs, qs⟩ := q
  rw [toRaw, toRawList_eq]

end QuorumSet

open QuorumSet

/-! ### The map from public keys to IDs -/

theorem rawIds_aux (r : RawFbas) (k : ℕ) (m : Map PublicKey ℕ) (p : PublicKey) (i : ℕ) :
    (((r.zipIdx k).map (fun p => (p.1.publicKey, p.2))).foldl
        (fun m p => Map.insert m p.1 p.2) m).get? p = some i ↔
      (∃ j, i = k + j ∧ LastIndex r p j) ∨ ((∀ n ∈ r, n.publicKey ≠ p) ∧ m.get? p = some i) := by
  induction r generalizing k m with
  | nil =>
    constructor
    · intro h; exact .inr ⟨by simp, h⟩
    · rintro (⟨j, -, ⟨n, hn, -⟩, -⟩ | ⟨-, h⟩)
      · simp at hn
      · exact h
  | cons n r ih =>
    rw [List.zipIdx_cons, List.map_cons, List.foldl_cons, ih, Map.get?_insert]
    have hcons : ∀ j, LastIndex (n :: r) p (j + 1) ↔ LastIndex r p j := by
      intro j
      unfold LastIndex
      rw [List.getElem?_cons_succ]
      refine and_congr Iff.rfl ⟨fun h j' n' hj hn => ?_, fun h j' n' hj hn => ?_⟩
      · exact h (j' + 1) n' (by omega) (by rw [List.getElem?_cons_succ]; exact hn)
      · obtain ⟨j', rfl⟩ : ∃ j'', j' = j'' + 1 := ⟨j' - 1, by omega⟩
        rw [List.getElem?_cons_succ] at hn
        exact h j' n' (by omega) hn
    have hzero : LastIndex (n :: r) p 0 ↔ n.publicKey = p ∧ ∀ n ∈ r, n.publicKey ≠ p := by
      unfold LastIndex
      rw [List.getElem?_cons_zero]
      constructor
      · rintro ⟨⟨n', h1, h2⟩, h3⟩
        obtain rfl := Option.some.inj h1
        refine ⟨h2, fun n' hn' => ?_⟩
        obtain ⟨j, hj, rfl⟩ := List.getElem_of_mem hn'
        exact h3 (j + 1) _ (by omega) (by rw [List.getElem?_cons_succ, List.getElem?_eq_getElem hj])
      · rintro ⟨h1, h2⟩
        refine ⟨⟨n, rfl, h1⟩, fun j n' hj hn => ?_⟩
        obtain ⟨j, rfl⟩ : ∃ j'', j = j'' + 1 := ⟨j - 1, by omega⟩
        rw [List.getElem?_cons_succ] at hn
        exact h2 n' (List.mem_of_getElem? hn)
    constructor
    · rintro (⟨j, rfl, hj⟩ | ⟨h1, h2⟩)
      · exact .inl ⟨j + 1, by omega, (hcons j).2 hj⟩
      · by_cases hp : p = n.publicKey
        · rw [if_pos hp] at h2
          exact .inl ⟨0, by have := Option.some.inj h2; omega, hzero.2 ⟨hp.symm, h1⟩⟩
        · rw [if_neg hp] at h2
          refine .inr ⟨fun n' hn' => ?_, h2⟩
          rcases List.mem_cons.1 hn' with rfl | hn'
          · exact Ne.symm hp
          · exact h1 n' hn'
    · rintro (⟨j, rfl, hj⟩ | ⟨h1, h2⟩)
      · cases j with
        | zero =>
          obtain ⟨h1, h2⟩ := hzero.1 hj
          exact .inr ⟨h2, by rw [if_pos h1.symm]; rfl⟩
        | succ j => exact .inl ⟨j, by omega, (hcons j).1 hj⟩
      · refine .inr ⟨fun n' hn' => h1 n' (List.mem_cons_of_mem _ hn'), ?_⟩
        rw [if_neg (Ne.symm (h1 n List.mem_cons_self))]
        exact h2

theorem rawIds_get? (r : RawFbas) (p : PublicKey) (i : ℕ) :
    (Fbas.rawIds r).get? p = some i ↔ LastIndex r p i := by
  unfold Fbas.rawIds Map.collect
  rw [rawIds_aux]
  simp [Map.get?]

theorem LastIndex.lt {r : RawFbas} {p : PublicKey} {i : ℕ} (h : LastIndex r p i) : i < r.length := by
  obtain ⟨⟨n, hn, -⟩, -⟩ := h
  exact (List.getElem?_eq_some_iff.1 hn).1

theorem lastIndex_of_distinct {r : RawFbas} (hd : DistinctKeys r) {p : PublicKey} {i : ℕ} :
    LastIndex r p i ↔ ∃ n, r[i]? = some n ∧ n.publicKey = p := by
  refine ⟨fun h => h.1, fun h => ⟨h, fun j n' hj hn hp => ?_⟩⟩
  obtain ⟨n, h1, h2⟩ := h
  obtain ⟨hi, rfl⟩ := List.getElem?_eq_some_iff.1 h1
  obtain ⟨hj', rfl⟩ := List.getElem?_eq_some_iff.1 hn
  have := List.pairwise_iff_getElem.1 hd i j (by simpa using hi) (by simpa using hj') hj
  simp only [List.getElem_map] at this
  exact this (h2.trans hp.symm)

/-! ### `from_raw` yields what the JSON says -/

theorem mem_filterMap_iff {m : Map PublicKey ℕ} {vs : List PublicKey} {i : ℕ} :
    i ∈ sortIds (vs.filterMap m.get?) ↔ ∃ p ∈ vs, m.get? p = some i := by
  rw [mem_sortIds, List.mem_filterMap]

theorem mentions_fromRaw {m : Map PublicKey ℕ} {q : RawQuorumSet} {i : ℕ} :
    Mentions (fromRaw m q) i ↔ ∃ p, RawMentions q p ∧ m.get? p = some i := by
  induction q using RawQuorumSet.induct with
  | h t vs qs ih =>
    rw [fromRaw_eq]
    constructor
    · intro h
      cases h with
      | validator h =>
        obtain ⟨p, hp, hm⟩ := mem_filterMap_iff.1 h
        exact ⟨p, .validator hp, hm⟩
      | inner hq h =>
        have hq' := (sortQs_perm _).mem_iff.1 hq
        obtain ⟨q, hqq, rfl⟩ := List.mem_map.1 hq'
        obtain ⟨p, hp, hm⟩ := (ih q hqq).1 h
        exact ⟨p, .inner hqq hp, hm⟩
    · rintro ⟨p, hp, hm⟩
      cases hp with
      | validator h => exact .validator (mem_filterMap_iff.2 ⟨p, h, hm⟩)
      | inner hq h =>
        exact .inner ((sortQs_perm _).mem_iff.2 (List.mem_map_of_mem hq)) ((ih _ hq).2 ⟨p, h, hm⟩)

theorem means_fromRaw {m : Map PublicKey ℕ} (q : RawQuorumSet) :
    Means (fun p i => m.get? p = some i) q (fromRaw m q) := by
  induction q using RawQuorumSet.induct with
  | h t vs qs ih =>
    rw [fromRaw_eq]
    refine .intro _ _ rfl (fun i => ?_) (sortIds_pairwise _) (qs.map (fromRaw m)) (sortQs_perm _)
      (by simp) ?_ (sortQs_pairwise _)
    · show (sortIds _).count i = _
      rw [(sortIds_perm _).count_eq]
      show (vs.filterMap m.get?).count i = vs.countP _
      induction vs with
      | nil => rfl
      | cons v vs ihv =>
        rw [List.filterMap_cons, List.countP_cons, ← ihv]
        cases hv : m.get? v with
        | none => simp
        | some j =>
          dsimp only
          rw [List.count_cons]
          simp
    · intro k r' q' h1 h2
      dsimp only at h1
      rw [List.getElem?_map, h1] at h2
      rw [← Option.some.inj h2]
      exact ih r' (List.mem_of_getElem? h1)

theorem sorted_fromRaw (m : Map PublicKey ℕ) (q : RawQuorumSet) : SortedQSet (fromRaw m q) := by
  induction q using RawQuorumSet.induct with
  | h t vs qs ih =>
    rw [fromRaw_eq]
    refine .intro _ (sortIds_pairwise _) (sortQs_pairwise _) (fun q' hq' => ?_)
    obtain ⟨q, hq, rfl⟩ := List.mem_map.1 ((sortQs_perm _).mem_iff.1 hq')
    exact ih q hq

/-- Converting a sorted quorum set to public keys and back changes nothing, if the keys lead back. -/
theorem fromRaw_toRaw {m : Map PublicKey ℕ} {f : Fbas} {q : QuorumSet} (hs : SortedQSet q)
    (h : ∀ x, Mentions q x → m.get? (f.rawName x) = some x) : fromRaw m (toRaw f q) = q := by
  induction hs with
  | intro q hv hs hi ih =>
    obtain ⟨t, vs, qs⟩ := q
    rw [fromRaw_eq, toRaw_eq]
    dsimp only at *
    have h1 : (vs.map f.rawName).filterMap m.get? = vs := by
      rw [List.filterMap_map]
      conv_rhs => rw [← List.filterMap_some (l := vs)]
      exact List.filterMap_congr (fun x hx => h x (.validator hx))
    have h2 : (qs.map (toRaw f)).map (fromRaw m) = qs := by
      rw [List.map_map]
      conv_rhs => rw [← List.map_id qs]
      exact List.map_congr_left (fun q hq => ih q hq (fun x hx => h x (.inner hq hx)))
    rw [h1, h2, sortIds_of_pairwise hv, sortQs_of_pairwise hs]

theorem rawIds_congr {r r' : RawFbas} (h : r.map RawNode.publicKey = r'.map RawNode.publicKey) :
    Fbas.rawIds r = Fbas.rawIds r' := by
  unfold Fbas.rawIds
  have key : ∀ r : RawFbas, r.zipIdx.map (fun p => (p.1.publicKey, p.2)) =
      (r.map RawNode.publicKey).zipIdx := by
    intro r
    rw [List.zipIdx_map]
    rfl
  rw [key, key, h]

theorem rawName_of_lt {f : Fbas} {x : ℕ} (hx : x < f.nodes.length) : f.rawName x = nameOf f x := by
  unfold Fbas.rawName nameOf
  rw [List.getElem?_eq_getElem hx]

theorem nameOf_fromRaw {r : RawFbas} {x : ℕ} {n : RawNode} (h : r[x]? = some n) :
    nameOf (Fbas.fromRaw r) x = n.publicKey := by
  unfold nameOf Fbas.fromRaw
  dsimp only
  rw [List.getElem?_map, h]
  rfl

theorem keys_toRaw (f : Fbas) : f.toRaw.map RawNode.publicKey = f.nodes.map Node.publicKey := by
  unfold Fbas.toRaw
  rw [List.map_map]
  rfl

theorem keys_fromRaw (r : RawFbas) :
    (Fbas.fromRaw r).nodes.map Node.publicKey = r.map RawNode.publicKey := by
  unfold Fbas.fromRaw
  dsimp only
  rw [List.map_map]
  rfl

theorem fromRaw_toRaw_fromRaw (r : RawFbas) :
    Fbas.fromRaw (Fbas.fromRaw r).toRaw = Fbas.fromRaw r := by
  have hk : Fbas.rawIds (Fbas.fromRaw r).toRaw = Fbas.rawIds r :=
    rawIds_congr (by rw [keys_toRaw, keys_fromRaw])
  rw [Fbas.fromRaw, hk]
  conv_rhs => rw [Fbas.fromRaw]
  congr 1
  unfold Fbas.toRaw
  rw [List.map_map]
  conv_rhs => rw [← List.map_id (r.map (Node.fromRaw (Fbas.rawIds r)))]
  refine List.map_congr_left (fun n hn => ?_)
  obtain ⟨n, hn', rfl⟩ := List.mem_map.1 hn
  show (⟨_, fromRaw _ (toRaw _ (fromRaw _ _))⟩ : Node) = ⟨_, _⟩
  congr 1
  refine fromRaw_toRaw (sorted_fromRaw _ _) (fun x hx => ?_)
  obtain ⟨p, -, hp⟩ := mentions_fromRaw.1 hx
  have hl := (rawIds_get? r p x).1 hp
  obtain ⟨n', h1, h2⟩ := hl.1
  rw [rawName_of_lt (by show x < (Fbas.fromRaw r).nodes.length
                        unfold Fbas.fromRaw; simpa using LastIndex.lt hl), nameOf_fromRaw h1, h2]
  exact hp

theorem toRaw_keys_distinct {f : Fbas} (h : DistinctNames f) : DistinctKeys f.toRaw := by
  unfold DistinctKeys
  rw [keys_toRaw]
  exact h

theorem rawIds_toRaw {f : Fbas} (hd : DistinctNames f) (p : PublicKey) (i : ℕ) :
    (Fbas.rawIds f.toRaw).get? p = some i ↔ ∃ n, f.nodes[i]? = some n ∧ n.publicKey = p := by
  rw [rawIds_get?, lastIndex_of_distinct (toRaw_keys_distinct hd)]
  unfold Fbas.toRaw
  rw [List.getElem?_map]
  constructor
  · rintro ⟨n, h1, h2⟩
    obtain ⟨n', h3, rfl⟩ := Option.map_eq_some_iff.1 h1
    exact ⟨n', h3, h2⟩
  · rintro ⟨n, h1, h2⟩
    exact ⟨_, by rw [h1]; rfl, h2⟩

theorem rawIds_name {f : Fbas} (hd : DistinctNames f) {x : ℕ} (hx : x < f.nodes.length) :
    (Fbas.rawIds f.toRaw).get? (f.rawName x) = some x := by
  rw [rawIds_toRaw hd]
  exact ⟨f.nodes[x], List.getElem?_eq_getElem hx, by
    rw [Fbas.rawName, List.getElem?_eq_getElem hx]⟩

theorem wf_mentions {f : Fbas} (hwf : WF f) {n : Node} (hn : n ∈ f.nodes) {x : ℕ}
    (hx : Mentions n.quorumSet x) : x < f.nodes.length := by
  obtain ⟨i, hi, rfl⟩ := List.getElem_of_mem hn
  exact hwf i x ⟨_, ⟨_, List.getElem?_eq_getElem hi, rfl⟩, hx⟩

theorem fromRaw_toRaw_nodes {f : Fbas} (hd : DistinctNames f) (hwf : WF f)
    (hs : ∀ n ∈ f.nodes, SortedQSet n.quorumSet) : (Fbas.fromRaw f.toRaw).nodes = f.nodes := by
  show f.toRaw.map (Node.fromRaw (Fbas.rawIds f.toRaw)) = f.nodes
  conv_lhs => rw [Fbas.toRaw, List.map_map]
  conv_rhs => rw [← List.map_id f.nodes]
  refine List.map_congr_left (fun n hn => ?_)
  show (⟨_, fromRaw _ (toRaw _ _)⟩ : Node) = n
  rw [show f.nodes.map (Node.toRaw f) = f.toRaw from rfl]
  rw [fromRaw_toRaw (hs n hn) (fun x hx => rawIds_name hd (wf_mentions hwf hn hx))]
  rfl

end FA
