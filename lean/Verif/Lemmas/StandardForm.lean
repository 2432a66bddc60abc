import Verif.Lemmas.SameQSet
import Verif.Props.Core

/-!
# Standard form
-/

namespace FA
open Spec QuorumSet

/-! ### Restricting -/

open Classical in
theorem restrictList_eq (keep : PublicKey → Prop) (qs : List RawQuorumSet) :
    restrictList keep qs = (qs.map (restrict keep)).filter (fun q => decide (q ≠ ⟨0, [], []⟩)) := by
  induction qs with
  | nil => rfl
  | cons q qs ih =>
    rw [restrictList, List.map_cons, List.filter_cons, ih]
    by_cases h : restrict keep q = ⟨0, [], []⟩
    · rw [if_pos h, if_neg (by simpa using h)]
    · rw [if_neg h, if_pos (by simpa using h)]

open Classical in
theorem restrict_eq (keep : PublicKey → Prop) (q : RawQuorumSet) :
    restrict keep q = ⟨q.threshold, q.validators.filter (fun p => decide (keep p)),
      (q.inner.map (restrict keep)).filter (fun q => decide (q ≠ ⟨0, [], []⟩))⟩ := by
  obtain ⟨t, vs, qs⟩ := q
  rw [restrict, restrictList_eq]

theorem same_empty {a b : RawQuorumSet} (h : SameQSet a b) : a = ⟨0, [], []⟩ ↔ b = ⟨0, [], []⟩ := by
  induction h with
  | validators t qs h =>
    constructor
    · intro he
      obtain ⟨rfl, rfl, rfl⟩ := RawQuorumSet.mk.inj he
      rw [List.perm_nil.1 h.symm]
    · intro he
      obtain ⟨rfl, rfl, rfl⟩ := RawQuorumSet.mk.inj he
      rw [List.perm_nil.1 h]
  | inner t vs h =>
    constructor
    · intro he
      obtain ⟨rfl, rfl, rfl⟩ := RawQuorumSet.mk.inj he
      rw [List.perm_nil.1 h.symm]
    · intro he
      obtain ⟨rfl, rfl, rfl⟩ := RawQuorumSet.mk.inj he
      rw [List.perm_nil.1 h]
  | nested t vs l₁ l₂ _ ih => simp
  | trans _ _ ih1 ih2 => exact ih1.trans ih2

open Classical in
theorem forall₂_filter_empty {l l' : List RawQuorumSet} (h : List.Forall₂ SameQSet l l') :
    List.Forall₂ SameQSet (l.filter (fun q => decide (q ≠ ⟨0, [], []⟩)))
      (l'.filter (fun q => decide (q ≠ ⟨0, [], []⟩))) := by
  induction h with
  | nil => exact .nil
  | @cons a b l l' hab _ ih =>
    rw [List.filter_cons, List.filter_cons]
    by_cases he : a = ⟨0, [], []⟩
    · have := (same_empty hab).1 he
      rw [if_neg (by simpa using he), if_neg (by simpa using this)]
      exact ih
    · have := fun h => he ((same_empty hab).2 h)
      rw [if_pos (by simpa using he), if_pos (by simpa using this)]
      exact .cons hab ih

theorem restrict_same {keep : PublicKey → Prop} {a b : RawQuorumSet} (h : SameQSet a b) :
    SameQSet (restrict keep a) (restrict keep b) := by
  classical
  induction h with
  | validators t qs h =>
    rw [restrict_eq, restrict_eq]
    exact .validators _ _ (h.filter _)
  | inner t vs h =>
    rw [restrict_eq, restrict_eq]
    exact .inner _ _ ((h.map _).filter _)
  | nested t vs l₁ l₂ _ ih =>
    rw [restrict_eq, restrict_eq]
    refine SameQSet.of_forall₂ _ _ (forall₂_filter_empty ?_)
    simp only [List.map_append, List.map_cons]
    refine List.rel_append (List.forall₂_same.2 (fun _ _ => SameQSet.refl _))
      (.cons ih (List.forall₂_same.2 (fun _ _ => SameQSet.refl _)))
  | trans _ _ ih1 ih2 => exact .trans ih1 ih2

theorem mem_restrictFbas {keep : PublicKey → Prop} {r : RawFbas} {n : RawNode} :
    n ∈ restrictFbas keep r ↔ ∃ m ∈ r, keep m.publicKey ∧
      n = { m with quorumSet := restrict keep m.quorumSet } := by
  classical
  unfold restrictFbas
  simp only [List.mem_map, List.mem_filter, decide_eq_true_eq]
  constructor
  · rintro ⟨m, ⟨h1, h2⟩, rfl⟩; exact ⟨m, h1, h2, rfl⟩
  · rintro ⟨m, h1, h2, rfl⟩; exact ⟨m, ⟨h1, h2⟩, rfl⟩

theorem restrictFbas_distinct {keep : PublicKey → Prop} {r : RawFbas} (h : DistinctKeys r) :
    DistinctKeys (restrictFbas keep r) := by
  classical
  unfold DistinctKeys restrictFbas at *
  rw [List.map_map]
  exact h.sublist ((List.filter_sublist (l := r)).map _)

/-- FBASs with different public keys and the same nodes are reorderings of each other. -/
theorem reordered_of_mem {r r' : RawFbas} (hd : DistinctKeys r) (hd' : DistinctKeys r')
    (h : ∀ a ∈ r, ∃ b ∈ r', SameNode a b) (h' : ∀ b ∈ r', ∃ a ∈ r, SameNode a b) :
    Reordered r r' := by
  classical
  choose g hg using h'
  refine ⟨r'.attach.map (fun b => g b.1 b.2), ?_, ?_⟩
  · have hnd : r.Nodup := List.Nodup.of_map _ hd
    have hk : (r'.attach.map (fun b => g b.1 b.2)).map RawNode.publicKey =
        r'.map RawNode.publicKey := by
      rw [List.map_map]
      conv_rhs => rw [← List.attach_map_subtype_val r', List.map_map]
      refine List.map_congr_left (fun b _ => (hg b.1 b.2).2.1)
    have hnd' : (r'.attach.map (fun b => g b.1 b.2)).Nodup := by
      refine List.Nodup.of_map RawNode.publicKey ?_
      rw [hk]
      exact hd'
    rw [List.perm_ext_iff_of_nodup hnd hnd']
    intro a
    constructor
    · intro ha
      obtain ⟨b, hb, hab⟩ := h a ha
      refine List.mem_map.2 ⟨⟨b, hb⟩, List.mem_attach _ _, ?_⟩
      exact eq_of_key hd (hg b hb).1 ha ((hg b hb).2.1.trans hab.1.symm)
    · intro ha
      obtain ⟨b, -, rfl⟩ := List.mem_map.1 ha
      exact (hg b.1 b.2).1
  · rw [List.forall₂_map_left_iff]
    conv => arg 3; rw [← List.attach_map_subtype_val r']
    rw [List.forall₂_map_right_iff]
    exact List.forall₂_same.2 (fun b _ => (hg b.1 b.2).2)

theorem _root_.FA.Spec.Reordered.restrict {keep : PublicKey → Prop} {r r' : RawFbas}
    (hd : DistinctKeys r) (h : Reordered r r') :
    Reordered (restrictFbas keep r) (restrictFbas keep r') := by
  have hd' : DistinctKeys r' := h.keys.nodup_iff.1 hd
  refine reordered_of_mem (restrictFbas_distinct hd) (restrictFbas_distinct hd') ?_ ?_
  · intro a ha
    obtain ⟨m, hm, hk, rfl⟩ := mem_restrictFbas.1 ha
    obtain ⟨m', hm', hs⟩ := h.mem hm
    exact ⟨_, mem_restrictFbas.2 ⟨m', hm', hs.1 ▸ hk, rfl⟩, hs.1, restrict_same hs.2⟩
  · intro a ha
    obtain ⟨m, hm, hk, rfl⟩ := mem_restrictFbas.1 ha
    obtain ⟨m', hm', hs⟩ := h.symm.mem hm
    exact ⟨_, mem_restrictFbas.2 ⟨m', hm', hs.1 ▸ hk, rfl⟩, hs.1.symm, restrict_same hs.2.symm⟩

/-! ### Shrinking, in terms of names -/

variable {f f₁ : Fbas} {K : NodeSet}

/-- The nodes of a shrunken FBAS. -/
structure ShrunkenNodes (f : Fbas) (K : NodeSet) (f₁ : Fbas) : Prop where
  len : f₁.nodes.length = K.card
  node : ∀ i < K.card, f₁.nodes[i]? =
    (f.nodes[un K i]?).map (Node.shrunken (ShrinkManager.new K).shrinkMap)

theorem shrunken_nodes (hK : K ⊆ f.allNodes) : ∃ f₁, f.shrunken K = .ok (f₁, ShrinkManager.new K) ∧
    IsShrunken f K f₁ ∧ ShrunkenNodes f K f₁ := by
  obtain ⟨g, hg, hgl, hge⟩ := newGenericUnconfigured_ok (elems K).length
  obtain ⟨nodes', h1, h2, h3⟩ := shrunkenLoop_ok f K (List.range f.nodes.length) g.nodes
    (by rw [hgl, length_elems]) (fun x hx => List.mem_range.1 hx)
  have he : f.shrunken K = .ok (⟨nodes', g.pkToId⟩, ShrinkManager.new K) := by
    unfold Fbas.shrunken
    dsimp only
    rw [show (ShrinkManager.new K).unshrinkTable.length = (elems K).length from rfl, hg]
    dsimp only
    rw [h1]
  obtain ⟨f₁, hf₁, hs⟩ := Fbas.shrunken_ok f K
  have := he.symm.trans hf₁
  obtain rfl := (Prod.mk.inj (Except.ok.inj this)).1
  refine ⟨_, he, hs, h2, fun i hi => ?_⟩
  have := h3 i hi
  rw [if_pos] at this
  · exact this
  · exact List.mem_range.2 (Finset.mem_range.1 (hK (un_mem hi)))

theorem ShrunkenNodes.name (h : ShrunkenNodes f K f₁) {i : ℕ} (hi : i < K.card) :
    nameOf f₁ i = nameOf f (un K i) := by
  unfold nameOf
  rw [h.node i hi]
  cases f.nodes[un K i]? with
  | none => rfl
  | some n => rfl

theorem ShrunkenNodes.names (h : ShrunkenNodes f K f₁) {S : NodeSet}
    (hS : S ⊆ Finset.range K.card) : names f₁ S = names f (unSet K S) := by
  unfold Spec.names unSet
  rw [Finset.image_image]
  exact Finset.image_congr (fun i hi => h.name (Finset.mem_range.1 (hS hi)))

theorem distinctNames_iff {f : Fbas} : DistinctNames f ↔ ∀ i j, i < f.nodes.length →
    j < f.nodes.length → nameOf f i = nameOf f j → i = j := by
  constructor
  · exact fun h i j hi hj => nameOf_inj h hi hj
  · intro h
    unfold DistinctNames
    rw [List.nodup_iff_injective_get]
    rintro ⟨i, hi⟩ ⟨j, hj⟩ hij
    rw [List.length_map] at hi hj
    refine Fin.ext (h i j hi hj ?_)
    unfold nameOf
    rw [List.getElem?_eq_getElem hi, List.getElem?_eq_getElem hj]
    simpa using hij

theorem ShrunkenNodes.distinct (h : ShrunkenNodes f K f₁) (hK : K ⊆ f.allNodes)
    (hd : DistinctNames f) : DistinctNames f₁ := by
  rw [distinctNames_iff, h.len]
  intro i j hi hj hij
  rw [h.name hi, h.name hj] at hij
  exact un_inj hi hj (nameOf_inj hd (Finset.mem_range.1 (hK (un_mem hi)))
    (Finset.mem_range.1 (hK (un_mem hj))) hij)

theorem toRaw_empty_iff (f : Fbas) (q : QuorumSet) :
    toRaw f q = ⟨0, [], []⟩ ↔ q = QuorumSet.empty := by
  obtain ⟨t, vs, qs⟩ := q
  rw [toRaw_eq, QuorumSet.empty]
  simp

/-- Shrinking a quorum set and then using public keys is the same, up to order, as using public keys
and then restricting. -/
theorem toRaw_shrunken {keep : PublicKey → Prop} (h : ShrunkenNodes f K f₁) (hK : K ⊆ f.allNodes)
    {q : QuorumSet} (hk : ∀ x, Mentions q x → (keep (f.rawName x) ↔ x ∈ K)) :
    SameQSet (toRaw f₁ (q.shrunken (ShrinkManager.new K).shrinkMap)) (restrict keep (toRaw f q)) := by
  classical
  induction q using QuorumSet.induct with
  | h t vs qs ih =>
    rw [QuorumSet.shrunken, shrunkenList_eq, toRaw_eq, toRaw_eq, restrict_eq]
    dsimp only
    have h1 : ((sortIds (vs.filterMap (ShrinkManager.new K).shrinkMap.get?)).map f₁.rawName).Perm
        ((vs.map f.rawName).filter (fun p => decide (keep p))) := by
      refine ((sortIds_perm _).map _).trans ?_
      have hvs : ∀ x ∈ vs, (keep (f.rawName x) ↔ x ∈ K) := fun x hx => hk x (.validator hx)
      clear hk ih
      induction vs with
      | nil => exact .nil
      | cons v vs ih =>
        have ih := ih (fun x hx => hvs x (List.mem_cons_of_mem _ hx))
        have hv := hvs v List.mem_cons_self
        by_cases hvK : v ∈ K
        · obtain ⟨i, hi, rfl⟩ := un_surj hvK
          rw [List.filterMap_cons_some (shrinkMap_un hi), List.map_cons, List.map_cons,
            List.filter_cons_of_pos (by simpa using hv.2 hvK)]
          have : f₁.rawName i = f.rawName (un K i) := by
            rw [rawName_of_lt (by rw [h.len]; exact hi),
              rawName_of_lt (Finset.mem_range.1 (hK hvK)), h.name hi]
          rw [this]
          exact .cons _ ih
        · rw [List.filterMap_cons_none (shrinkMap_none.2 hvK), List.map_cons,
            List.filter_cons_of_neg (by simpa using fun hh => hvK (hv.1 hh))]
          exact ih
    refine .trans (.validators _ _ h1) ?_
    refine .trans (.inner _ _ ((sortQs_perm _).map _)) (SameQSet.of_forall₂ _ _ ?_)
    have h2 : (List.filter (fun q => decide (q ≠ QuorumSet.empty))
        (qs.map (QuorumSet.shrunken (ShrinkManager.new K).shrinkMap))).map (toRaw f₁) =
        (qs.map (fun q => toRaw f₁ (q.shrunken (ShrinkManager.new K).shrinkMap))).filter
          (fun q => decide (q ≠ ⟨0, [], []⟩)) := by
      rw [show (fun q => toRaw f₁ (q.shrunken (ShrinkManager.new K).shrinkMap)) =
        (toRaw f₁) ∘ (QuorumSet.shrunken (ShrinkManager.new K).shrinkMap) from rfl,
        ← List.map_map, List.filter_map (f := toRaw f₁)]
      congr 1
      refine List.filter_congr (fun q _ => ?_)
      simp only [Function.comp, ne_eq, toRaw_empty_iff]
    rw [h2, List.map_map]
    refine forall₂_filter_empty ?_
    rw [List.forall₂_map_left_iff, List.forall₂_map_right_iff]
    exact List.forall₂_same.2 (fun q hq => ih q hq (fun x hx => hk x (.inner hq hx)))

theorem toRaw_getElem? (f : Fbas) (i : ℕ) : f.toRaw[i]? = (f.nodes[i]?).map (Node.toRaw f) := by
  unfold Fbas.toRaw
  rw [List.getElem?_map]

theorem toRaw_shrunken_fbas {keep : PublicKey → Prop} (h : ShrunkenNodes f K f₁)
    (hK : K ⊆ f.allNodes) (hd : DistinctNames f) (hwf : WF f)
    (hk : ∀ x < f.nodes.length, keep (nameOf f x) ↔ x ∈ K) :
    Reordered f₁.toRaw (restrictFbas keep f.toRaw) := by
  have hname : ∀ {x n}, f.nodes[x]? = some n → nameOf f x = n.publicKey := by
    intro x n hn
    unfold nameOf
    rw [hn]
  have key : ∀ {i n}, i < K.card → f.nodes[un K i]? = some n →
      SameNode (Node.toRaw f₁ (n.shrunken (ShrinkManager.new K).shrinkMap))
        { Node.toRaw f n with quorumSet := restrict keep (Node.toRaw f n).quorumSet } := by
    intro i n hi hn
    refine ⟨rfl, toRaw_shrunken h hK (fun x hx => ?_)⟩
    have hlt := wf_mentions hwf (List.mem_of_getElem? hn) hx
    rw [rawName_of_lt hlt]
    exact hk x hlt
  refine reordered_of_mem (toRaw_keys_distinct (h.distinct hK hd))
    (restrictFbas_distinct (toRaw_keys_distinct hd)) ?_ ?_
  · intro a ha
    obtain ⟨i, hi, rfl⟩ := List.getElem_of_mem ha
    have hi' : i < K.card := by
      rw [← h.len]
      unfold Fbas.toRaw at hi
      rwa [List.length_map] at hi
    have hlt := Finset.mem_range.1 (hK (un_mem hi'))
    have hn := List.getElem?_eq_getElem hlt
    have := toRaw_getElem? f₁ i
    rw [List.getElem?_eq_getElem hi, h.node i hi', hn] at this
    have := Option.some.inj this
    rw [this]
    refine ⟨_, mem_restrictFbas.2 ⟨Node.toRaw f f.nodes[un K i], ?_, ?_, rfl⟩, key hi' hn⟩
    · exact List.mem_map.2 ⟨_, List.getElem_mem hlt, rfl⟩
    · show keep f.nodes[un K i].publicKey
      rw [← hname hn]
      exact (hk _ hlt).2 (un_mem hi')
  · intro b hb
    obtain ⟨m, hm, hkm, rfl⟩ := mem_restrictFbas.1 hb
    obtain ⟨n, hn, rfl⟩ := List.mem_map.1 hm
    obtain ⟨x, hx, rfl⟩ := List.getElem_of_mem hn
    have hnx := List.getElem?_eq_getElem hx
    have hxK : x ∈ K := by
      rw [← hk x hx, hname hnx]
      exact hkm
    obtain ⟨i, hi, rfl⟩ := un_surj hxK
    refine ⟨_, ?_, key hi hnx⟩
    have := toRaw_getElem? f₁ i
    rw [h.node i hi, hnx] at this
    exact List.mem_of_getElem? this

/-! ### Relevant nodes, in terms of names -/

theorem rawTrusts_toRaw (hwf : WF f) {a b : PublicKey} : RawTrusts f.toRaw a b ↔
    ∃ x y, x < f.nodes.length ∧ nameOf f x = a ∧ nameOf f y = b ∧ Trusts f x y := by
  unfold RawTrusts
  constructor
  · rintro ⟨n', hn', rfl, hm⟩
    obtain ⟨n, hn, rfl⟩ := List.mem_map.1 hn'
    obtain ⟨x, hx, rfl⟩ := List.getElem_of_mem hn
    obtain ⟨y, hy, rfl⟩ := mentions_toRaw.1 hm
    have hnx := List.getElem?_eq_getElem hx
    refine ⟨x, y, hx, ?_, ?_, _, ⟨_, hnx, rfl⟩, hy⟩
    · unfold nameOf; rw [hnx]; rfl
    · rw [rawName_of_lt (wf_mentions hwf hn hy)]
  · rintro ⟨x, y, hx, rfl, rfl, q, ⟨n, hn, rfl⟩, hm⟩
    refine ⟨Node.toRaw f n, List.mem_map.2 ⟨n, List.mem_of_getElem? hn, rfl⟩, ?_, ?_⟩
    · unfold nameOf; rw [hn]; rfl
    · exact mentions_toRaw.2 ⟨y, hm, rawName_of_lt (wf_mentions hwf (List.mem_of_getElem? hn) hm)⟩

theorem rawReaches_toRaw (hd : DistinctNames f) (hwf : WF f) {x y : ℕ} (hx : x < f.nodes.length)
    (hy : y < f.nodes.length) : RawReaches f.toRaw (nameOf f x) (nameOf f y) ↔ Reaches f x y := by
  constructor
  · intro h
    have : ∀ b, RawReaches f.toRaw (nameOf f x) b → ∃ z < f.nodes.length, nameOf f z = b ∧
        Reaches f x z := by
      intro b hb
      induction hb with
      | refl => exact ⟨x, hx, rfl, .refl⟩
      | tail _ ht ih =>
        obtain ⟨z, hz, rfl, hr⟩ := ih
        obtain ⟨z', w, hz', hzz, rfl, ht'⟩ := (rawTrusts_toRaw hwf).1 ht
        obtain rfl := nameOf_inj hd hz' hz hzz
        exact ⟨w, hwf _ _ ht', rfl, hr.tail ht'⟩
    obtain ⟨z, hz, hzy, hr⟩ := this _ h
    rwa [nameOf_inj hd hz hy hzy] at hr
  · intro h
    have : ∀ z, Reaches f x z → z < f.nodes.length ∧
        RawReaches f.toRaw (nameOf f x) (nameOf f z) := by
      intro z hz
      induction hz with
      | refl => exact ⟨hx, .refl⟩
      | tail _ ht ih =>
        exact ⟨hwf _ _ ht, ih.2.tail ((rawTrusts_toRaw hwf).2 ⟨_, _, ih.1, rfl, rfl, ht⟩)⟩
    exact (this y h).2

theorem rawQuorum_toRaw_iff (hd : DistinctNames f) (hwf : WF f) {P : Finset PublicKey} :
    RawQuorum f.toRaw P ↔ ∃ Q, IsQuorum f Q ∧ names f Q = P := by
  constructor
  · intro h
    obtain ⟨Q, hQ, rfl⟩ := exists_names (f := f) (P := P) (fun p hp => by
      obtain ⟨n', hn', h1, -⟩ := h.2 p hp
      obtain ⟨n, hn, rfl⟩ := List.mem_map.1 hn'
      exact ⟨n, hn, h1⟩)
    exact ⟨Q, (rawQuorum_toRaw hd hwf hQ).1 h, rfl⟩
  · rintro ⟨Q, hQ, rfl⟩
    exact (rawQuorum_toRaw hd hwf hQ.subset_all).2 hQ

theorem relevant_toRaw (env : Env) (hd : DistinctNames f) (hwf : WF f) {x : ℕ}
    (hx : x < f.nodes.length) : RawRelevant f.toRaw (nameOf f x) ↔ x ∈ f.relevantNodes env := by
  rw [Props.C08_relevant_iff env f hwf]
  unfold RawRelevant
  refine and_congr ?_ ?_
  · constructor
    · rintro ⟨P, hP, hxP⟩
      obtain ⟨Q, hQ, rfl⟩ := (rawQuorum_toRaw_iff hd hwf).1 hP
      exact ⟨Q, hQ, (mem_names hd hQ.subset_all hx).1 hxP⟩
    · rintro ⟨Q, hQ, hxQ⟩
      exact ⟨_, (rawQuorum_toRaw_iff hd hwf).2 ⟨Q, hQ, rfl⟩, (mem_names hd hQ.subset_all hx).2 hxQ⟩
  · constructor
    · rintro ⟨P, hP, h⟩
      obtain ⟨Q, hQ, rfl⟩ := (rawQuorum_toRaw_iff hd hwf).1 hP
      refine ⟨Q, hQ, fun y hy => ?_⟩
      have hy' := Finset.mem_range.1 (hQ.subset_all hy)
      have := h _ ((mem_names hd hQ.subset_all hy').2 hy)
      rwa [rawReaches_toRaw hd hwf hx hy', rawReaches_toRaw hd hwf hy' hx] at this
    · rintro ⟨Q, hQ, h⟩
      refine ⟨_, (rawQuorum_toRaw_iff hd hwf).2 ⟨Q, hQ, rfl⟩, fun p hp => ?_⟩
      obtain ⟨y, hy, rfl⟩ := Finset.mem_image.1 hp
      have hy' := Finset.mem_range.1 (hQ.subset_all hy)
      rw [rawReaches_toRaw hd hwf hx hy', rawReaches_toRaw hd hwf hy' hx]
      exact h y hy

/-- The standard form, without reference to IDs. -/
theorem toStandardForm_eq (env : Env) (hd : DistinctNames f) (hwf : WF f) :
    f.toStandardForm env = .ok (Fbas.fromRaw (Fbas.sortByKey
      (restrictFbas (RawRelevant f.toRaw) f.toRaw))) := by
  have hK : f.relevantNodes env ⊆ f.allNodes := by
    intro x hx
    obtain ⟨⟨Q, hQ, hxQ⟩, -⟩ := (Props.C08_relevant_iff env f hwf x).1 hx
    exact hQ.subset_all hxQ
  obtain ⟨f₁, h1, hs, hn⟩ := shrunken_nodes hK
  unfold Fbas.toStandardForm
  rw [h1]
  dsimp only
  congr 1
  exact fromRaw_sortByKey (toRaw_keys_distinct (hn.distinct hK hd))
    (toRaw_shrunken_fbas hn hK hd hwf (fun x hx => relevant_toRaw env hd hwf hx))

end FA
