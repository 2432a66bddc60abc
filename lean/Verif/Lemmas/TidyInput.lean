import Verif.SpecTidyInput
import Verif.Lemmas.Separate
import Verif.Lemmas.Tidy

/-!
# Helper lemmas: inputs with a tidy top tier
-/

namespace FA
open Spec QuorumSet

section
variable {m : Map PublicKey ℕ}

theorem filterMap_length_of_known {vs : List PublicKey} (h : ∀ p ∈ vs, ∃ i, m.get? p = some i) :
    (vs.filterMap m.get?).length = vs.length := by
  induction vs with
  | nil => rfl
  | cons p vs ih =>
    obtain ⟨i, hi⟩ := h p List.mem_cons_self
    rw [List.filterMap_cons_some hi, List.length_cons, List.length_cons,
      ih fun p hp => h p (List.mem_cons_of_mem _ hp)]

theorem fromRaw_validators_length {q : RawQuorumSet}
    (h : ∀ p, RawMentions q p → ∃ i, m.get? p = some i) :
    (fromRaw m q).validators.length = q.validators.length := by
  rw [fromRaw_eq]
  exact ((sortIds_perm _).length_eq).trans (filterMap_length_of_known fun p hp => h p (.validator hp))

theorem fromRaw_inner_length {q : RawQuorumSet} : (fromRaw m q).inner.length = q.inner.length := by
  rw [fromRaw_eq]
  exact ((sortQs_perm _).length_eq).trans (List.length_map _)

theorem mem_fromRaw_inner {q : RawQuorumSet} {q' : QuorumSet} :
    q' ∈ (fromRaw m q).inner ↔ ∃ p ∈ q.inner, fromRaw m p = q' := by
  rw [fromRaw_eq]
  exact (sortQs_perm _).mem_iff.trans List.mem_map

theorem sane_fromRaw {q : RawQuorumSet} (h : RawSane q)
    (hk : ∀ p, RawMentions q p → ∃ i, m.get? p = some i) : Sane (fromRaw m q) := by
  induction h with
  | intro q hpos hle hi ih =>
    refine .intro _ (by rw [fromRaw_eq]; exact hpos) ?_ fun q' hq' => ?_
    · rw [fromRaw_validators_length hk, fromRaw_inner_length, fromRaw_eq]
      exact hle
    · obtain ⟨p, hp, rfl⟩ := mem_fromRaw_inner.1 hq'
      exact ih p hp fun x hx => hk x (.inner hp hx)

theorem majority_fromRaw {q : RawQuorumSet} (h : RawMajority q)
    (hk : ∀ p, RawMentions q p → ∃ i, m.get? p = some i) : Majority (fromRaw m q) := by
  induction h with
  | intro q hmaj hle hc hi ih =>
    have e1 := fromRaw_validators_length hk
    have e2 := fromRaw_inner_length (m := m) (q := q)
    have e3 : (fromRaw m q).threshold = q.threshold := by rw [fromRaw_eq]
    refine .intro _ (by rw [e1, e2, e3]; exact hmaj) (by rw [e1, e2, e3]; exact hle) ?_ fun q' hq' => ?_
    · rw [e1, e2, e3]
      refine hc.imp id fun h h' => h ?_
      rw [h'] at e2
      exact List.length_eq_zero_iff.1 e2.symm
    · obtain ⟨p, hp, rfl⟩ := mem_fromRaw_inner.1 hq'
      exact ih p hp fun x hx => hk x (.inner hp hx)

theorem dupFree_fromRaw {q : RawQuorumSet} (h : RawDupFree q)
    (hinj : ∀ p p' i, m.get? p = some i → m.get? p' = some i → p = p') : DupFree (fromRaw m q) := by
  induction h with
  | intro q hv hvi hii hi ih =>
    refine .intro _ ?_ ?_ ?_ ?_
    · rw [fromRaw_eq]
      refine (sortIds_perm _).nodup_iff.2 (hv.filterMap ?_)
      intro p p' i hp hp'
      exact hinj p p' i hp hp'
    · intro q' hq' x hx hmem
      obtain ⟨p, hp, rfl⟩ := mem_fromRaw_inner.1 hq'
      obtain ⟨k, hk, hkx⟩ := mentions_fromRaw.1 hx
      rw [fromRaw_eq] at hmem
      obtain ⟨k', hk', hkx'⟩ := mem_filterMap_iff.1 hmem
      obtain rfl := hinj _ _ _ hkx hkx'
      exact hvi p hp k hk hk'
    · rw [fromRaw_eq]
      have hsym : ∀ {a b : QuorumSet}, (∀ x, Mentions a x → ¬ Mentions b x) →
          ∀ x, Mentions b x → ¬ Mentions a x := fun h x hb ha => h x ha hb
      refine ((sortQs_perm _).pairwise_iff hsym).2 (List.pairwise_map.2 (hii.imp ?_))
      intro a b hab x ha hb
      obtain ⟨k, hk, hkx⟩ := mentions_fromRaw.1 ha
      obtain ⟨k', hk', hkx'⟩ := mentions_fromRaw.1 hb
      obtain rfl := hinj _ _ _ hkx hkx'
      exact hab k hk hk'
    · intro q' hq'
      obtain ⟨p, hp, rfl⟩ := mem_fromRaw_inner.1 hq'
      exact ih p hp

end

variable {r r' : RawFbas}

theorem hasQSet_fromRaw {x : NodeId} {q : QuorumSet} : HasQSet (Fbas.fromRaw r) x q ↔
    ∃ n, r[x]? = some n ∧ fromRaw (Fbas.rawIds r) n.quorumSet = q := by
  unfold HasQSet Fbas.fromRaw
  simp only [List.getElem?_map, Option.map_eq_some_iff]
  constructor
  · rintro ⟨_, ⟨n, hn, rfl⟩, rfl⟩
    exact ⟨n, hn, rfl⟩
  · rintro ⟨n, hn, rfl⟩
    exact ⟨_, ⟨n, hn, rfl⟩, rfl⟩

theorem rawInTopTier_iff (hd : DistinctKeys r) {p : PublicKey} :
    (∃ x, InTopTier (Fbas.fromRaw r) x ∧ nameOf (Fbas.fromRaw r) x = p) ↔ RawInTopTier r p := by
  rw [named_topTier]
  exact exists_congr fun P => and_congr_left fun _ => named_rawMinQuorum hd P

theorem rawIds_inj (hd : DistinctKeys r) (p p' : PublicKey) (i : ℕ)
    (h : (Fbas.rawIds r).get? p = some i) (h' : (Fbas.rawIds r).get? p' = some i) : p = p' := by
  rw [rawIds_get?, lastIndex_of_distinct hd] at h h'
  obtain ⟨n, hn, rfl⟩ := h
  obtain ⟨n', hn', rfl⟩ := h'
  rw [Option.some.inj (hn.symm.trans hn')]

theorem Spec.RawInTopTier.known (hd : DistinctKeys r) {p : PublicKey} (h : RawInTopTier r p) :
    ∃ i, (Fbas.rawIds r).get? p = some i ∧ InTopTier (Fbas.fromRaw r) i := by
  obtain ⟨x, hx, rfl⟩ := (rawInTopTier_iff hd).2 h
  obtain ⟨Q, hQ, hxQ⟩ := hx
  have hlt : x < r.length := by
    have := Finset.mem_range.1 (hQ.prop.subset_all hxQ)
    rwa [fromRaw_length] at this
  refine ⟨x, ?_, Q, hQ, hxQ⟩
  rw [rawIds_get?, lastIndex_of_distinct hd]
  exact ⟨_, List.getElem?_eq_getElem hlt, (nameOf_fromRaw (List.getElem?_eq_getElem hlt)).symm⟩

/-- The condition on the input implies the one on the loaded FBAS. -/
theorem Spec.RawTidyTopTier.loaded (hd : DistinctKeys r) (h : RawTidyTopTier r) :
    TidyTopTier (Fbas.fromRaw r) := by
  intro x q hx hq
  obtain ⟨n, hn, rfl⟩ := hasQSet_fromRaw.1 hq
  obtain ⟨h1, h2, h3⟩ := h n (List.mem_of_getElem? hn)
    ((rawInTopTier_iff hd).1 ⟨x, hx, nameOf_fromRaw hn⟩)
  refine ⟨dupFree_fromRaw h1 (rawIds_inj hd), sane_fromRaw h2 fun p hp => ?_, fun y hy => ?_⟩
  · obtain ⟨i, hi, -⟩ := (h3 p hp).known hd
    exact ⟨i, hi⟩
  · obtain ⟨p, hp, hpy⟩ := mentions_fromRaw.1 hy
    obtain ⟨i, hi, ht⟩ := (h3 p hp).known hd
    obtain rfl := Option.some.inj (hpy.symm.trans hi)
    exact ht

theorem Spec.RawMajoritiesInside.loaded (hd : DistinctKeys r) (h : RawTidyTopTier r)
    (hm : RawMajoritiesInside r) : MajoritiesInside (Fbas.fromRaw r) := by
  intro x q hx hq q' hq'
  obtain ⟨n, hn, rfl⟩ := hasQSet_fromRaw.1 hq
  have ht := (rawInTopTier_iff hd).1 ⟨x, hx, nameOf_fromRaw hn⟩
  obtain ⟨p, hp, rfl⟩ := mem_fromRaw_inner.1 hq'
  refine majority_fromRaw (hm n (List.mem_of_getElem? hn) ht p hp) fun k hk => ?_
  obtain ⟨i, hi, -⟩ := ((h n (List.mem_of_getElem? hn) ht).2.2 k (.inner hp hk)).known hd
  exact ⟨i, hi⟩

theorem rawQuorumIntersection_iff (hd : DistinctKeys r) :
    QuorumIntersection (Fbas.fromRaw r) ↔ RawQuorumIntersection r := by
  rw [named_quorumIntersection (distinct_fromRaw hd)]
  simp only [named_rawMinQuorum hd]
  constructor
  · rintro ⟨⟨P, hP⟩, h⟩
    refine ⟨⟨P, hP.prop⟩, fun P P' h1 h2 => ?_⟩
    obtain ⟨R, s, hR⟩ := exists_rawMinQuorum h1
    obtain ⟨R', s', hR'⟩ := exists_rawMinQuorum h2
    obtain ⟨p, a, b⟩ := h R R' hR hR'
    exact ⟨p, s a, s' b⟩
  · rintro ⟨⟨P, hP⟩, h⟩
    obtain ⟨R, -, hR⟩ := exists_rawMinQuorum hP
    exact ⟨⟨R, hR⟩, fun P P' h1 h2 => h P P' h1.prop h2.prop⟩

theorem named_rawMinSplitting (hd : DistinctKeys r) (S : Finset PublicKey) :
    Named (Fbas.fromRaw r) (IsMinSplitting (Fbas.fromRaw r)) S ↔ RawMinSplitting r S := by
  rw [named_minSplitting (distinct_fromRaw hd)]
  simp only [named_rawMinQuorum hd]
  rfl

theorem rawInTopTier_append (hd : DistinctKeys (r ++ r')) (hu : Unrelated r r') {p : PublicKey} :
    RawInTopTier (r ++ r') p ↔ RawInTopTier r p ∨ RawInTopTier r' p := by
  unfold RawInTopTier
  simp only [rawMinQuorum_append hd hu, or_and_right, exists_or]

theorem Spec.RawInTopTier.mem_keys {p : PublicKey} (h : RawInTopTier r p) : p ∈ keys r := by
  obtain ⟨P, hP, hp⟩ := h
  exact hP.prop.subset_keys hp

/-- Unrelated networks with tidy top tiers have a tidy top tier together. -/
theorem Spec.RawTidyTopTier.append (hd : DistinctKeys (r ++ r')) (hu : Unrelated r r')
    (h : RawTidyTopTier r) (h' : RawTidyTopTier r') : RawTidyTopTier (r ++ r') := by
  have hK := Finset.disjoint_left.1 (keys_disjoint hd)
  intro n hn ht
  rw [rawInTopTier_append hd hu] at ht
  rcases List.mem_append.1 hn with hn | hn
  · obtain ⟨a, b, c⟩ := h n hn (ht.resolve_right fun h => hK (mem_keys.2 ⟨n, hn, rfl⟩) h.mem_keys)
    exact ⟨a, b, fun p hp => (rawInTopTier_append hd hu).2 (.inl (c p hp))⟩
  · obtain ⟨a, b, c⟩ := h' n hn (ht.resolve_left fun h => hK h.mem_keys (mem_keys.2 ⟨n, hn, rfl⟩))
    exact ⟨a, b, fun p hp => (rawInTopTier_append hd hu).2 (.inr (c p hp))⟩

end FA
