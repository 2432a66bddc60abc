import Verif.Lemmas.Reuse

/-!
# Proofs about the report of examples/results_reuse.rs
-/

namespace FA
open Spec Analysis Props

namespace Reuse

/-! ### Equal JSON values -/

theorem rawQSet_toJson_inj : ∀ q q' : RawQuorumSet, q.toJson = q'.toJson → q = q' := by
  intro q
  induction q using RawQuorumSet.induct with
  | h t vs qs ih =>
    rintro ⟨t', vs', qs'⟩ h
    rw [RawQuorumSet.toJson, RawQuorumSet.toJson, toJsonList_eq, toJsonList_eq] at h
    have strs : ∀ {a b : List PublicKey}, a.map Json.str = b.map Json.str → a = b :=
      fun h => List.map_injective_iff.2 (fun _ _ h => Json.str.inj h) h
    have inner : ∀ qs', qs.map RawQuorumSet.toJson = qs'.map RawQuorumSet.toJson → qs = qs' := by
      clear h
      induction qs with
      | nil =>
        intro qs' h
        cases qs' with
        | nil => rfl
        | cons => cases h
      | cons q qs ih' =>
        intro qs' h
        cases qs' with
        | nil => cases h
        | cons q' qs' =>
          obtain ⟨h1, h2⟩ := List.cons.inj h
          rw [ih q List.mem_cons_self _ h1, ih' (fun q hq => ih q (List.mem_cons_of_mem _ hq)) _ h2]
    have h := Json.obj.inj h
    obtain ⟨h1, h⟩ := List.cons.inj h
    obtain ⟨h2, h⟩ := List.cons.inj h
    have e1 : t = t' := Json.nat.inj (Prod.mk.inj h1).2
    have e2 : vs = vs' := strs (Json.arr.inj (Prod.mk.inj h2).2)
    have e3 : qs = qs' := by
      cases qs with
      | nil =>
        cases qs' with
        | nil => rfl
        | cons => cases h
      | cons q qs =>
        cases qs' with
        | nil => cases h
        | cons q' qs' => exact inner _ (Json.arr.inj (Prod.mk.inj (List.cons.inj h).1).2)
    rw [e1, e2, e3]

theorem toJson_inj {r r' : RawFbas} (h : (Fbas.fromRaw r).toJson = (Fbas.fromRaw r').toJson) :
    Fbas.fromRaw r = Fbas.fromRaw r' := by
  rw [← C36_load_save_load r, ← C36_load_save_load r']
  congr 1
  have node : ∀ f f' (n n' : Node), (n.toRaw f).toJson = (n'.toRaw f').toJson →
      n.toRaw f = n'.toRaw f' := by
    intro f f' n n' h
    obtain ⟨h1, h⟩ := List.cons.inj (Json.obj.inj h)
    obtain ⟨h2, -⟩ := List.cons.inj h
    unfold Node.toRaw
    rw [show n.publicKey = n'.publicKey from Json.str.inj (Prod.mk.inj h1).2,
      show n.quorumSet.toRaw f = n'.quorumSet.toRaw f' from rawQSet_toJson_inj _ _ (Prod.mk.inj h2).2]
  have list : ∀ f f' (l l' : List Node),
      (l.map (Node.toRaw f)).map RawNode.toJson = (l'.map (Node.toRaw f')).map RawNode.toJson →
      l.map (Node.toRaw f) = l'.map (Node.toRaw f') := by
    intro f f' l
    induction l with
    | nil =>
      intro l' h
      cases l' with
      | nil => rfl
      | cons => cases h
    | cons n l ih =>
      intro l' h
      cases l' with
      | nil => cases h
      | cons n' l' =>
        obtain ⟨h1, h2⟩ := List.cons.inj h
        rw [List.map_cons, List.map_cons, node _ _ _ _ h1, ih _ h2]
  exact list _ _ _ _ (Json.arr.inj h)

/-! ### Nodes with given public keys -/

theorem getNodeId_iff {r : RawFbas} (hd : DistinctKeys r) {p : PublicKey} {x : NodeId} :
    (Fbas.fromRaw r).getNodeId p = some x ↔
      x < (Fbas.fromRaw r).nodes.length ∧ nameOf (Fbas.fromRaw r) x = p := by
  show (Fbas.rawIds r).get? p = some x ↔ _
  rw [rawIds_get?, lastIndex_of_distinct hd, fromRaw_length]
  have key : ∀ n, r[x]? = some n → nameOf (Fbas.fromRaw r) x = n.publicKey := by
    intro n hn
    have : (Fbas.fromRaw r).nodes[x]? = some (Node.fromRaw (Fbas.rawIds r) n) := by
      show (r.map _)[x]? = _
      rw [List.getElem?_map, hn]
      rfl
    unfold nameOf
    rw [this]
    rfl
  constructor
  · rintro ⟨n, hn, rfl⟩
    exact ⟨(List.getElem?_eq_some_iff.1 hn).1, key n hn⟩
  · rintro ⟨hx, rfl⟩
    exact ⟨_, List.getElem?_eq_getElem hx, (key _ (List.getElem?_eq_getElem hx)).symm⟩

theorem mem_withKeys {f : Fbas} {keys : List PublicKey} {x : NodeId} (hx : x < f.nodes.length) :
    x ∈ withKeys f keys ↔ nameOf f x ∈ keys := by
  unfold withKeys
  rw [Finset.mem_filter, Finset.mem_range, and_iff_right hx]

theorem mem_keysOf {f : Fbas} (hd : DistinctNames f) {ids : List NodeId} {x : NodeId}
    (hx : x < f.nodes.length) : x ∈ ids.toFinset ↔ nameOf f x ∈ keysOf f ids := by
  rw [List.mem_toFinset, keysOf, List.mem_filterMap]
  have key : ∀ y, y < f.nodes.length → (f.nodes[y]?).map Node.publicKey = some (nameOf f y) := by
    intro y hy
    unfold nameOf
    rw [List.getElem?_eq_getElem hy]
    rfl
  constructor
  · exact fun h => ⟨x, h, key x hx⟩
  · rintro ⟨y, hy, h⟩
    have hy' : y < f.nodes.length := by
      by_contra hc
      rw [List.getElem?_eq_none (by exact Nat.not_lt.1 hc)] at h
      cases h
    rw [key y hy'] at h
    rwa [nameOf_inj hd hx hy' (Option.some.inj h).symm]

/-! ### Splitting sets without quorum intersection -/

theorem minSplitting_of_not_intersecting {f : Fbas} (hq : ∃ Q, IsQuorum f Q)
    (h : ¬ QuorumIntersection f) (S : NodeSet) : IsMinSplitting f S ↔ S = ∅ := by
  have he : Splitting f ∅ := by
    have : ¬ ∀ Q₁ Q₂, IsQuorum f Q₁ → IsQuorum f Q₂ → ∃ x, x ∈ Q₁ ∧ x ∈ Q₂ := fun h' => h ⟨hq, h'⟩
    push Not at this
    obtain ⟨Q₁, Q₂, h1, h2, h3⟩ := this
    obtain ⟨M₁, hm1, hs1⟩ := exists_minimal_sub (P := IsQuorum f) h1
    obtain ⟨M₂, hm2, hs2⟩ := exists_minimal_sub (P := IsQuorum f) h2
    refine ⟨M₁, M₂, hm1, hm2, ?_, fun x hx => ?_⟩
    · rintro rfl
      obtain ⟨x, hx⟩ := hm1.prop.1
      exact h3 x (hs1 hx) (hs2 hx)
    · obtain ⟨a, b⟩ := Finset.mem_inter.1 hx
      exact absurd (hs2 b) (h3 x (hs1 a))
  constructor
  · intro hS
    exact Finset.subset_empty.1 (hS.2 he (Finset.empty_subset _))
  · rintro rfl
    exact ⟨he, fun _ _ _ => Finset.empty_subset _⟩

/-! ### The report for one FBAS -/

theorem groupings_compatible {r : RawFbas} (hd : DistinctKeys r) {gs : List RawGrouping}
    (hg : DisjointOrganizations gs) :
    Groupings.Compatible (gs.map (Grouping.fromRaw (Fbas.fromRaw r).pkToId)) ∧
      ∀ x y, x < (Fbas.fromRaw r).nodes.length → y < (Fbas.fromRaw r).nodes.length →
        ((∃ org ∈ gs.map (Grouping.fromRaw (Fbas.fromRaw r).pkToId),
          x ∈ org.validators ∧ y ∈ org.validators) ↔
        ∃ g ∈ gs, nameOf (Fbas.fromRaw r) x ∈ g.validators ∧ nameOf (Fbas.fromRaw r) y ∈ g.validators) := by
  have mem : ∀ (g : RawGrouping) x, x ∈ (Grouping.fromRaw (Fbas.fromRaw r).pkToId g).validators ↔
      x < (Fbas.fromRaw r).nodes.length ∧ nameOf (Fbas.fromRaw r) x ∈ g.validators := by
    intro g x
    show x ∈ g.validators.filterMap _ ↔ _
    rw [List.mem_filterMap]
    constructor
    · rintro ⟨p, hp, hx⟩
      obtain ⟨h1, rfl⟩ := (getNodeId_iff hd).1 hx
      exact ⟨h1, hp⟩
    · rintro ⟨h1, h2⟩
      exact ⟨_, h2, (getNodeId_iff hd).2 ⟨h1, rfl⟩⟩
  constructor
  · intro a ha b hb x hxa hxb
    obtain ⟨a, ha', rfl⟩ := List.mem_map.1 ha
    obtain ⟨b, hb', rfl⟩ := List.mem_map.1 hb
    have := hg a ha' b hb' _ ((mem a x).1 hxa).2 ((mem b x).1 hxb).2
    show List.filterMap _ a.validators = List.filterMap _ b.validators
    rw [this]
  · intro x y hx hy
    constructor
    · rintro ⟨_, ho, h1, h2⟩
      obtain ⟨g, hg, rfl⟩ := List.mem_map.1 ho
      exact ⟨g, hg, ((mem g x).1 h1).2, ((mem g y).1 h2).2⟩
    · rintro ⟨g, hg, h1, h2⟩
      exact ⟨_, List.mem_map_of_mem hg, (mem g x).2 ⟨hx, h1⟩, (mem g y).2 ⟨hy, h2⟩⟩

theorem fromRaw_groupings' (r : RawFbas) (gs : List RawGrouping) :
    ∃ g, Groupings.fromRaw gs (Fbas.fromRaw r) = .ok g ∧
      Groupings.new (gs.map (Grouping.fromRaw (Fbas.fromRaw r).pkToId)) (Fbas.fromRaw r) = .ok g := by
  obtain ⟨g, h1, -⟩ := fromRaw_groupings r gs
  exact ⟨g, h1, h1⟩

theorem names_of_pretty {f : Fbas} (hd : DistinctNames f) {S : NodeSet}
    (hS : ∀ x ∈ S, x < f.nodes.length) {l : List PublicKey}
    (h : ∃ v : List NodeId, v.Pairwise (· < ·) ∧ v.toFinset = S ∧
      List.Forall₂ (fun x name => (f.nodes[x]?).map Node.publicKey = some name) v l) :
    l.Nodup ∧ l.toFinset = names f S ∧ l.length = S.card := by
  obtain ⟨v, hv, rfl, hf⟩ := h
  have hl : l = v.map (nameOf f) := by
    clear hv hS
    induction hf with
    | nil => rfl
    | cons h _ ih =>
      rw [List.map_cons, ← ih]
      congr 1
      unfold nameOf
      split
      next hn => rw [hn] at h; exact (Option.some.inj h).symm
      next hn => rw [hn] at h; cases h
  have hn : v.Nodup := hv.imp (fun h => Nat.ne_of_lt h)
  refine ⟨?_, ?_, ?_⟩
  · rw [hl]
    exact hn.map_on (fun x hx y hy h => nameOf_inj hd (hS x (List.mem_toFinset.2 hx))
      (hS y (List.mem_toFinset.2 hy)) h)
  · rw [hl]
    ext p
    simp [names]
  · rw [hl, List.length_map, List.toFinset_card_of_nodup hn]

theorem postAnalysis_spec {r : RawFbas} (hd : DistinctKeys r) {res : Results} {B S : List NodeSet}
    (hB : res.minimalBlockingSets.unwrap = .ok B)
    (hK : ∃ K l, res.minimalBlockingSets = SetVecResult.new l (some (ShrinkManager.new K)))
    (hb : ∀ X, X ∈ B ↔ IsMinBlocking (Fbas.fromRaw r) X) (hs : B.Pairwise Before)
    (hS : res.minimalSplittingSets.unwrap = .ok S)
    (hsp : ∀ X, X ∈ S ↔ IsMinSplitting (Fbas.fromRaw r) X)
    {organizations : Json} {gs : List RawGrouping} (ho : DescribesGroupings organizations gs)
    (hg : DisjointOrganizations gs) (failing : List String) (evil : List NodeId) :
    ∃ first n m k last, postAnalysis (Fbas.fromRaw r) res organizations failing evil =
        .ok [.smallestBlockingSet first, .worstCase n m, .moreFailures k, last] ∧
      Report (Fbas.fromRaw r) gs (withKeys (Fbas.fromRaw r) failing) evil.toFinset first n m k last := by
  have hdn := distinct_fromRaw hd
  have hBlt : ∀ X ∈ B, ∀ x ∈ X, x < (Fbas.fromRaw r).nodes.length :=
    fun X hX => isMinBlocking_lt ((hb X).1 hX)
  -- there is a blocking set
  obtain ⟨B₀, hB₀, -⟩ := exists_minimal_sub (P := Blocking (Fbas.fromRaw r))
    (S := (Fbas.fromRaw r).allNodes) (fun Q hQ => by
      obtain ⟨x, hx⟩ := hQ.1
      exact ⟨x, hx, hQ.subset_all hx⟩)
  have hne : B ≠ [] := fun h => by have := (hb B₀).2 hB₀; rw [h] at this; cases this
  -- the first line
  obtain ⟨ll, hll, hf2⟩ := C35_pretty_names B (Fbas.fromRaw r) hBlt
  have hp := C35_pretty _ B hB (Fbas.fromRaw r) none
  rw [hll] at hp
  -- sizes
  have hsz := sizes_of_unwrap hB (.inr hK)
  -- organizations
  obtain ⟨g, hg1, hg2⟩ := fromRaw_groupings' r gs
  obtain ⟨hcomp, hsame⟩ := groupings_compatible hd hg
  have hm := merge_spec hg2
  let rep : ℕ → ℕ := fun x => Groupings.tailRep x (gs.map (Grouping.fromRaw (Fbas.fromRaw r).pkToId)) x
  have hmerge : g.mergeNodeSets B = .ok (B.map (Finset.image rep)) :=
    Groupings.mergeNodeSets_ok (fun X hX x hx => hm x (hBlt X hX x hx))
  have hmerged : res.minimalBlockingSets.mergedByGroup g = .ok ⟨B.map (Finset.image rep), none⟩ := by
    unfold SetVecResult.mergedByGroup
    rw [SetVecResult.unshrink_of_unwrap hB]
    dsimp only
    rw [hmerge]
  have hcard : ∀ X ∈ B, (X.image rep).card =
      (X.image (fun x => owner gs (nameOf (Fbas.fromRaw r) x))).card := by
    intro X hX
    refine card_image_congr (fun x hx y hy => ?_)
    have hx := hBlt X hX x hx
    have hy := hBlt X hX y hy
    rw [owner_eq_iff hg, Groupings.tailRep_eq_iff hcomp, hsame x y hx hy]
    exact or_congr_left ⟨fun h => by rw [h], fun h => nameOf_inj hdn hx hy h⟩
  -- failing nodes
  obtain ⟨ids, hids, hmem⟩ := C31_public_keys res.minimalBlockingSets failing (Fbas.fromRaw r)
  obtain ⟨r1, l1, h1, h2, h3, -⟩ := C31_blocking _ _ B hB hb ids
  have hfail : ids.toFinset = withKeys (Fbas.fromRaw r) failing := by
    ext x
    rw [List.mem_toFinset, hmem]
    constructor
    · rintro ⟨p, hp, hx⟩
      obtain ⟨hx', rfl⟩ := (getNodeId_iff hd).1 hx
      exact (mem_withKeys hx').2 hp
    · intro hx
      have hx' := Finset.mem_range.1 (Finset.mem_filter.1 hx).1
      exact ⟨_, (mem_withKeys hx').1 hx, (getNodeId_iff hd).2 ⟨hx', rfl⟩⟩
  obtain ⟨r2, l2, g1, g2, g3, -⟩ := C31_splitting _ _ S hS hsp evil
  have nt : ∀ {q : SetVecResult} {nodes q' l}, q.withoutNodes nodes = .ok q' →
      q'.minimalSets.unwrap = .ok l → q'.minimalSets.nodeSets = l := by
    intro q nodes q' l ha hb
    unfold SetVecResult.withoutNodes at ha
    split at ha
    · cases ha
    next q'' hq'' =>
      obtain rfl := Except.ok.inj ha
      have : q''.unshrinkTable = none := by
        unfold SetVecResult.unshrink at hq''
        split at hq''
        next =>
          split at hq''
          · cases hq''
          · obtain rfl := Except.ok.inj hq''; rfl
        next h => obtain rfl := Except.ok.inj hq''; rfl
      unfold SetVecResult.unwrap SetVecResult.unshrink SetVecResult.minimalSets at hb
      simp only [this] at hb
      exact Except.ok.inj hb
  have e1 := nt h1 h2
  have e2 := nt g1 g2
  cases ll with
  | nil =>
    cases B with
    | nil => exact absurd rfl hne
    | cons => cases hf2
  | cons first rest =>
    obtain ⟨X₀, B', rfl⟩ : ∃ X B', B = X :: B' := by
      cases B with
      | nil => cases hf2
      | cons X B' => exact ⟨X, B', rfl⟩
    rw [List.forall₂_cons] at hf2
    obtain ⟨n1, n2, n3⟩ := names_of_pretty hdn (hBlt X₀ List.mem_cons_self) hf2.1
    refine ⟨first, res.minimalBlockingSets.min,
      (SetVecResult.mk ((X₀ :: B').map (Finset.image rep)) none).minimalSets.min,
      r1.minimalSets.min, if r2.minimalSets.containsEmptySet then .lacksIntersection
        else .moreEvil r2.minimalSets.min, ?_, n1, ?_, ?_, ?_, ?_, ?_, ?_⟩
    · unfold postAnalysis
      simp only [hp, (C62_organizations organizations (Fbas.fromRaw r)).1 gs ho, hg1, hmerged, hids, h1, g1,
        bind, Except.bind]
    · rw [n2]
      exact ⟨X₀, (hb X₀).1 List.mem_cons_self, rfl⟩
    · rw [n3]
      refine le_antisymm ?_ (hsz.bounds X₀ List.mem_cons_self).1
      obtain ⟨⟨X, hX, hc⟩, -⟩ := hsz.attained hne
      rw [← hc]
      rcases List.mem_cons.1 hX with rfl | hX
      · exact le_rfl
      · rcases List.rel_of_pairwise_cons hs hX with h | h
        · exact h.le
        · exact h.1.le
    · refine ⟨?_, ?_⟩
      · obtain ⟨⟨X, hX, hc⟩, -⟩ := hsz.attained hne
        exact ⟨X, hc, by rw [Finset.union_empty]; exact ((hb X).1 hX).prop⟩
      · rintro k ⟨X, rfl, hX⟩
        rw [Finset.union_empty] at hX
        obtain ⟨Y, hY, hsub⟩ := exists_minimal_sub hX
        exact ((hsz.bounds Y ((hb Y).2 hY)).1).trans (Finset.card_le_card hsub)
    · rw [min_minimalSets]
      obtain ⟨s1, s2, -⟩ := SetVecResult.min_spec (SetVecResult.mk ((X₀ :: B').map (Finset.image rep)) none)
      refine ⟨?_, ?_⟩
      · obtain ⟨Y, hY, hc⟩ := s2 (by simp)
        obtain ⟨X, hX, rfl⟩ := List.mem_map.1 hY
        exact ⟨X, ((hb X).1 hX).prop, by rw [← hcard X hX]; exact hc⟩
      · rintro k ⟨X, hX, rfl⟩
        obtain ⟨Y, hY, hsub⟩ := exists_minimal_sub hX
        have hY' := (hb Y).2 hY
        refine (s1 _ (List.mem_map_of_mem hY')).trans ?_
        rw [hcard Y hY']
        exact Finset.card_le_card (Finset.image_subset_image hsub)
    · rw [hfail] at h3
      rcases fewest_of_minimal Blocking.mono h3 e1 with h | ⟨-, -, h⟩
      · exact h.1
      · exact absurd hB₀.prop (h B₀)
    · have hc := containsEmpty_iff g3
      unfold SetVecResult.containsEmptySet
      rw [e2]
      by_cases h0 : ∅ ∈ l2
      · exact .inl ⟨by simp [h0], hc.1 h0⟩
      · refine .inr ⟨r2.minimalSets.min, by simp [h0], fun h => h0 (hc.2 h), ?_⟩
        rcases fewest_of_minimal Splitting.mono g3 e2 with h | ⟨-, h1, h2⟩
        · exact .inl h.1
        · exact .inr ⟨h1, h2⟩

/-! ### The report for the FBAS that was loaded -/

theorem report_transfer {g f : Fbas} (hgd : DistinctNames g) (hfd : DistinctNames f)
    (hb : ∀ P, Named g (IsMinBlocking g) P ↔ Named f (IsMinBlocking f) P)
    (hs : ∀ P, Named g (IsMinSplitting g) P ↔ Named f (IsMinSplitting f) P)
    {gs : List RawGrouping} {failing : List PublicKey} {evil : List NodeId}
    {first : List PublicKey} {n m k : ℕ} {last : Line}
    (h : Report g gs (withKeys g failing) evil.toFinset first n m k last) :
    Report f gs (withKeys f failing) (withKeys f (keysOf g evil)) first n m k last := by
  have hb' : Named g (Minimal (Blocking g)) = Named f (Minimal (Blocking f)) := funext fun P => propext (hb P)
  have hs' : Named g (Minimal (Splitting g)) = Named f (Minimal (Splitting f)) :=
    funext fun P => propext (hs P)
  have bl : ∀ {f : Fbas} (S), Minimal (Blocking f) S → S ⊆ f.allNodes :=
    fun S hS x hx => Finset.mem_range.2 (isMinBlocking_lt hS x hx)
  have sl : ∀ {f : Fbas} (S), Minimal (Splitting f) S → S ⊆ f.allNodes :=
    fun S hS x hx => Finset.mem_range.2 (isMinSplitting_lt hS x hx)
  have fb : ∀ keys n, Fewest (Blocking g) (withKeys g keys) n → Fewest (Blocking f) (withKeys f keys) n := by
    intro keys n h
    rw [fewest_names hgd Blocking.mono bl (fun x hx => mem_withKeys hx), hb'] at h
    exact (fewest_names hfd Blocking.mono bl (fun x hx => mem_withKeys hx) n).2 h
  have fs : ∀ n, Fewest (Splitting g) evil.toFinset n ↔
      Fewest (Splitting f) (withKeys f (keysOf g evil)) n := by
    intro n
    rw [fewest_names hgd Splitting.mono sl (fun x hx => mem_keysOf hgd hx), hs',
      fewest_names hfd Splitting.mono sl (fun x hx => mem_withKeys hx)]
  have zero : ∀ {f : Fbas} {F}, Fewest (Splitting f) F 0 ↔ Splitting f F := by
    intro f F
    constructor
    · rintro ⟨⟨X, hX, h⟩, -⟩
      rwa [Finset.card_eq_zero.1 hX, Finset.empty_union] at h
    · exact fun h => ⟨⟨∅, rfl, by rwa [Finset.empty_union]⟩, fun _ _ => Nat.zero_le _⟩
  have e0 : ∀ f : Fbas, withKeys f [] = ∅ := fun f => by simp [withKeys]
  refine ⟨h.nodup, (hb _).1 h.named, h.length, ?_, ?_, fb _ _ h.failures, ?_⟩
  · rw [← e0 f]
    exact fb [] _ (by rw [e0]; exact h.nodes)
  · have := h.organizations
    rw [fewestOwners_names, hb'] at this
    exact (fewestOwners_names _).2 this
  · have hz : Splitting g evil.toFinset ↔ Splitting f (withKeys f (keysOf g evil)) := by
      rw [← zero, fs 0, zero]
    rcases h.safety with ⟨h1, h2⟩ | ⟨c, h1, h2, h3⟩
    · exact .inl ⟨h1, hz.1 h2⟩
    · refine .inr ⟨c, h1, fun h => h2 (hz.2 h), ?_⟩
      rcases h3 with h3 | ⟨h3, h4⟩
      · exact .inl ((fs c).1 h3)
      · refine .inr ⟨h3, fun X hX => ?_⟩
        obtain ⟨Y, hY, -⟩ := exists_minimal_sub hX
        obtain ⟨Z, hZ, -⟩ := (hs _).2 ⟨Y, hY, rfl⟩
        exact h4 Z hZ.prop

/-! ### Runs -/

theorem standardForm_ok (env : Env) (f : Fbas) : ∃ r, f.toStandardForm env = .ok (Fbas.fromRaw r) := by
  obtain ⟨f', h1, -⟩ := f.shrunken_ok (f.relevantNodes env)
  unfold Fbas.toStandardForm
  rw [h1]
  exact ⟨_, rfl⟩

theorem main_eq {env : Env} {hash : Json → String} {cache : Cache} {nodes organizations : Json}
    {failing : List String} {evil : List NodeId} {f g : Fbas} {res : Results} {cache' : Cache}
    (hf : Fbas.fromJson nodes = .ok f) (hg : f.toStandardForm env = .ok g)
    (hc : cached env cache g = .ok (res, cache')) :
    Reuse.main env hash cache nodes organizations failing evil =
      (postAnalysis g res organizations failing evil).map
        (fun lines => (.hash (hash g.toJson) :: lines, cache')) := by
  unfold Reuse.main
  simp only [hf, hg, hc, bind, Except.bind]
  cases postAnalysis g res organizations failing evil <;> rfl

theorem cached_ok {env : Env} {cache : Cache} {r : RawFbas} :
    ∃ res cache', cached env cache (Fbas.fromRaw r) = .ok (res, cache') ∧
      cache'.get (Fbas.fromRaw r) = some res := by
  unfold cached
  cases h : cache.get (Fbas.fromRaw r) with
  | some r' => exact ⟨r', cache, rfl, h⟩
  | none =>
    obtain ⟨res, _, _, hr, -⟩ := doAnalysis_spec env (wf_fromRaw r)
    refine ⟨res, (Fbas.fromRaw r, res) :: cache, ?_, ?_⟩
    · simp only [hr, bind, Except.bind]
    · rw [Cache.get, if_pos (by simp [sameNodes])]

theorem fromJson_cases (nodes : Json) :
    (∃ r, DescribesFbas nodes r ∧ Fbas.fromJson nodes = .ok (Fbas.fromRaw r)) ∨
      ((∀ r, ¬ DescribesFbas nodes r) ∧ Fbas.fromJson nodes = .error .explicit) := by
  unfold Fbas.fromJson
  cases h : RawFbas.fromJson nodes with
  | none =>
    refine .inr ⟨fun r hr => ?_, rfl⟩
    rw [fbas_fromJson_iff.2 hr] at h
    cases h
  | some r => exact .inl ⟨r, fbas_fromJson_iff.1 h, rfl⟩

theorem consistent_of_filled {E : Env → Prop} {cache : Cache} (h : FilledByRuns E cache) :
    Consistent E cache := by
  induction h with
  | empty => intro e he; cases he
  | run hash nodes organizations failing evil _ hE hm ih =>
    rcases fromJson_cases nodes with ⟨r, -, hf⟩ | ⟨-, hf⟩
    · obtain ⟨r', hg⟩ := standardForm_ok _ (Fbas.fromRaw r)
      obtain ⟨env', res, cache', -, -, hc, hcons, -⟩ := cached_spec hE ih ⟨r', rfl⟩
      rw [main_eq hf hg hc] at hm
      cases hp : postAnalysis (Fbas.fromRaw r') res organizations failing evil with
      | error e => rw [hp] at hm; cases hm
      | ok l =>
        rw [hp] at hm
        obtain ⟨-, rfl⟩ := Prod.mk.inj (Except.ok.inj hm)
        exact hcons
    · unfold Reuse.main at hm
      rw [hf] at hm
      cases hm

end Reuse
end FA
