import Verif.Model.Shrinking
import Verif.Lemmas.Symmetric
import Verif.Lemmas.Order
import Verif.Lemmas.Quorums

/-!
# Proofs about ID shrinking
-/

namespace FA
open Spec

/-! ### Lists with panics -/

theorem mapE_ok {α β : Type} {g : α → Except Panic β} {h : α → β} {l : List α}
    (hg : ∀ a ∈ l, g a = .ok (h a)) : mapE g l = .ok (l.map h) := by
  induction l with
  | nil => rfl
  | cons a l ih =>
    rw [mapE, hg a List.mem_cons_self, ih (fun b hb => hg b (List.mem_cons_of_mem _ hb))]
    rfl

theorem mapE_error {α β : Type} {g : α → Except Panic β} {e : Panic} {l : List α}
    (hg : ∀ a ∈ l, (∃ b, g a = .ok b) ∨ g a = .error e) {a : α} (ha : a ∈ l)
    (hae : g a = .error e) : mapE g l = .error e := by
  induction l with
  | nil => simp at ha
  | cons b l ih =>
    rw [mapE]
    rcases hg b List.mem_cons_self with ⟨c, hc⟩ | hc
    · rw [hc]
      dsimp only
      rcases List.mem_cons.1 ha with rfl | ha'
      · rw [hae] at hc; cases hc
      · rw [ih (fun b hb => hg b (List.mem_cons_of_mem _ hb)) ha']
    · rw [hc]

theorem mapE_eq_ok {α β : Type} {g : α → Except Panic β} {l : List α} {r : List β} :
    mapE g l = .ok r ↔ List.Forall₂ (fun a b => g a = .ok b) l r := by
  induction l generalizing r with
  | nil =>
    rw [mapE]
    constructor
    · intro h; rw [← Except.ok.inj h]; exact .nil
    · intro h; cases h; rfl
  | cons a l ih =>
    rw [mapE]
    constructor
    · intro h
      split at h
      · cases h
      next b hb =>
        split at h
        · cases h
        next bs hbs =>
          rw [← Except.ok.inj h]
          exact .cons hb (ih.1 hbs)
    · intro h
      cases h with
      | cons h1 h2 => rw [h1]; dsimp only; rw [ih.2 h2]

/-! ### Maps -/

theorem Map.get?_foldl_insert {K V : Type} [DecidableEq K] (l : List (K × V)) (m : Map K V) (k : K)
    (hk : k ∉ l.map Prod.fst) :
    (l.foldl (fun m p => Map.insert m p.1 p.2) m).get? k = m.get? k := by
  induction l generalizing m with
  | nil => rfl
  | cons p l ih =>
    rw [List.map_cons, List.mem_cons, not_or] at hk
    rw [List.foldl_cons, ih _ hk.2, Map.get?_insert, if_neg hk.1]

theorem Map.get?_collect_aux {K V : Type} [DecidableEq K] (l : List (K × V)) (m : Map K V)
    (hl : (l.map Prod.fst).Nodup) (k : K) (v : V) :
    (l.foldl (fun m p => Map.insert m p.1 p.2) m).get? k = some v ↔
      (k, v) ∈ l ∨ (k ∉ l.map Prod.fst ∧ m.get? k = some v) := by
  induction l generalizing m with
  | nil => simp
  | cons p l ih =>
    obtain ⟨k', v'⟩ := p
    rw [List.map_cons, List.nodup_cons] at hl
    rw [List.foldl_cons, ih _ hl.2, Map.get?_insert]
    simp only [List.map_cons, List.mem_cons, not_or, Prod.mk.injEq]
    by_cases h : k = k'
    · subst h
      have h1 : (k, v) ∉ l := fun hc => hl.1 (List.mem_map.2 ⟨_, hc, rfl⟩)
      simp [hl.1, h1, eq_comm]
    · simp [h]

theorem Map.get?_collect {K V : Type} [DecidableEq K] {l : List (K × V)}
    (hl : (l.map Prod.fst).Nodup) (k : K) (v : V) :
    (Map.collect l).get? k = some v ↔ (k, v) ∈ l := by
  unfold Map.collect
  rw [Map.get?_collect_aux l [] hl]
  simp [Map.get?]

/-! ### The two directions of the renaming -/

/-- Original ID of the shrunken ID `i`. -/
def un (K : NodeSet) (i : ℕ) : ℕ := (elems K).getD i 0

theorem getD_eq (l : List ℕ) {i : ℕ} (h : i < l.length) : l.getD i 0 = l[i] := by
  simp [List.getD, h]

theorem getElem?_elems {K : NodeSet} {i : ℕ} (hi : i < K.card) : (elems K)[i]? = some (un K i) := by
  have : i < (elems K).length := by rw [length_elems]; exact hi
  rw [un, getD_eq _ this, List.getElem?_eq_getElem this]

theorem un_mem {K : NodeSet} {i : ℕ} (hi : i < K.card) : un K i ∈ K :=
  mem_elems.1 (List.mem_of_getElem? (getElem?_elems hi))

theorem un_lt {K : NodeSet} {i j : ℕ} (hj : j < K.card) (hij : i < j) : un K i < un K j := by
  have hi : i < (elems K).length := by rw [length_elems]; omega
  have hj' : j < (elems K).length := by rw [length_elems]; exact hj
  have := List.pairwise_iff_getElem.1 (elems_pairwise K) i j hi hj' hij
  rw [un, un, getD_eq _ hi, getD_eq _ hj']
  exact this

theorem un_lt_iff {K : NodeSet} {i j : ℕ} (hi : i < K.card) (hj : j < K.card) :
    un K i < un K j ↔ i < j := by
  constructor
  · intro h
    by_contra hc
    rcases Nat.lt_or_eq_of_le (Nat.le_of_not_lt hc) with h1 | h1
    · have := un_lt hi h1; omega
    · subst h1; omega
  · exact un_lt hj

theorem un_inj {K : NodeSet} {i j : ℕ} (hi : i < K.card) (hj : j < K.card) (h : un K i = un K j) :
    i = j := by
  by_contra hne
  rcases Nat.lt_or_gt_of_ne hne with h1 | h1
  · have := un_lt hj h1; omega
  · have := un_lt hi h1; omega

theorem un_surj {K : NodeSet} {x : ℕ} (hx : x ∈ K) : ∃ i < K.card, un K i = x := by
  obtain ⟨i, hi, h⟩ := List.getElem_of_mem (mem_elems.2 hx)
  refine ⟨i, by rwa [← length_elems], ?_⟩
  rw [un, getD_eq _ hi, h]

theorem shrinkMap_get? (K : NodeSet) (x i : ℕ) :
    (ShrinkManager.new K).shrinkMap.get? x = some i ↔ i < K.card ∧ un K i = x := by
  have hnd : ((elems K).zipIdx.map Prod.fst).Nodup := by
    rw [show (elems K).zipIdx.map Prod.fst = elems K from List.zipIdx_map_fst _ _]
    exact elems_nodup K
  show (Map.collect (elems K).zipIdx).get? x = some i ↔ _
  rw [Map.get?_collect hnd, List.mk_mem_zipIdx_iff_getElem?]
  constructor
  · intro h
    have hi : i < K.card := by
      rw [← length_elems]
      exact (List.getElem?_eq_some_iff.1 h).1
    rw [getElem?_elems hi] at h
    exact ⟨hi, Option.some.inj h⟩
  · rintro ⟨hi, h⟩
    rw [getElem?_elems hi, h]

theorem shrinkMap_un {K : NodeSet} {i : ℕ} (hi : i < K.card) :
    (ShrinkManager.new K).shrinkMap.get? (un K i) = some i := (shrinkMap_get? K _ i).2 ⟨hi, rfl⟩

theorem shrinkMap_none {K : NodeSet} {x : ℕ} :
    (ShrinkManager.new K).shrinkMap.get? x = none ↔ x ∉ K := by
  constructor
  · intro h hx
    obtain ⟨i, hi, rfl⟩ := un_surj hx
    rw [shrinkMap_un hi] at h
    cases h
  · intro hx
    cases h : (ShrinkManager.new K).shrinkMap.get? x with
    | none => rfl
    | some i =>
      obtain ⟨hi, rfl⟩ := (shrinkMap_get? K x i).1 h
      exact absurd (un_mem hi) hx

/-- The original IDs of a set of shrunken IDs. -/
def unSet (K S : NodeSet) : NodeSet := S.image (un K)

/-- The shrunken IDs of the members of `S ∩ K`. -/
def shrSet (K S : NodeSet) : NodeSet := (Finset.range K.card).filter (fun i => un K i ∈ S)

theorem mem_shrSet {K S : NodeSet} {i : ℕ} : i ∈ shrSet K S ↔ i < K.card ∧ un K i ∈ S := by
  simp [shrSet]

theorem unSet_subset {K S : NodeSet} (h : S ⊆ Finset.range K.card) : unSet K S ⊆ K := by
  intro x hx
  obtain ⟨i, hi, rfl⟩ := Finset.mem_image.1 hx
  exact un_mem (Finset.mem_range.1 (h hi))

theorem un_mem_unSet {K S : NodeSet} (h : S ⊆ Finset.range K.card) {i : ℕ} (hi : i < K.card) :
    un K i ∈ unSet K S ↔ i ∈ S := by
  constructor
  · intro hx
    obtain ⟨j, hj, h'⟩ := Finset.mem_image.1 hx
    rw [← un_inj (Finset.mem_range.1 (h hj)) hi h']
    exact hj
  · exact fun h' => Finset.mem_image_of_mem _ h'

theorem shrSet_subset (K S : NodeSet) : shrSet K S ⊆ Finset.range K.card := Finset.filter_subset _ _

theorem unSet_shrSet (K S : NodeSet) : unSet K (shrSet K S) = S ∩ K := by
  ext x
  rw [Finset.mem_inter]
  constructor
  · intro hx
    obtain ⟨i, hi, rfl⟩ := Finset.mem_image.1 hx
    obtain ⟨h1, h2⟩ := mem_shrSet.1 hi
    exact ⟨h2, un_mem h1⟩
  · rintro ⟨hx, hxK⟩
    obtain ⟨i, hi, rfl⟩ := un_surj hxK
    exact Finset.mem_image_of_mem _ (mem_shrSet.2 ⟨hi, hx⟩)

theorem unSet_shrSet_of_subset {K S : NodeSet} (h : S ⊆ K) : unSet K (shrSet K S) = S := by
  rw [unSet_shrSet, Finset.inter_eq_left.2 h]

theorem shrSet_unSet {K S : NodeSet} (h : S ⊆ Finset.range K.card) : shrSet K (unSet K S) = S := by
  ext i
  rw [mem_shrSet]
  constructor
  · rintro ⟨hi, h'⟩; exact (un_mem_unSet h hi).1 h'
  · intro hi
    have := Finset.mem_range.1 (h hi)
    exact ⟨this, (un_mem_unSet h this).2 hi⟩

theorem card_unSet {K S : NodeSet} (h : S ⊆ Finset.range K.card) : (unSet K S).card = S.card := by
  refine Finset.card_image_of_injOn ?_
  intro i hi j hj hij
  exact un_inj (Finset.mem_range.1 (h hi)) (Finset.mem_range.1 (h hj)) hij

theorem unSet_subset_iff {K S T : NodeSet} (hS : S ⊆ Finset.range K.card)
    (hT : T ⊆ Finset.range K.card) : unSet K S ⊆ unSet K T ↔ S ⊆ T := by
  constructor
  · intro h i hi
    have := Finset.mem_range.1 (hS hi)
    exact (un_mem_unSet hT this).1 (h (Finset.mem_image_of_mem _ hi))
  · exact fun h => Finset.image_subset_image h

theorem unSet_injOn {K S T : NodeSet} (hS : S ⊆ Finset.range K.card)
    (hT : T ⊆ Finset.range K.card) (h : unSet K S = unSet K T) : S = T := by
  rw [← shrSet_unSet hS, ← shrSet_unSet hT, h]

/-- The renaming is compatible with the reporting order. -/
theorem before_unSet {K S T : NodeSet} (hS : S ⊆ Finset.range K.card)
    (hT : T ⊆ Finset.range K.card) (h : Before S T) : Before (unSet K S) (unSet K T) := by
  unfold Before at *
  rw [card_unSet hS, card_unSet hT]
  refine h.imp id (fun ⟨hc, x, hxS, hxT, hlt⟩ => ⟨hc, un K x, ?_, ?_, ?_⟩)
  · exact Finset.mem_image_of_mem _ hxS
  · rw [un_mem_unSet hT (Finset.mem_range.1 (hS hxS))]
    exact hxT
  · intro y hy
    have hx := Finset.mem_range.1 (hS hxS)
    by_cases hyK : y ∈ K
    · obtain ⟨j, hj, rfl⟩ := un_surj hyK
      rw [un_mem_unSet hS hj, un_mem_unSet hT hj]
      exact hlt j ((un_lt_iff hj hx).1 hy)
    · exact ⟨fun h => absurd (unSet_subset hS h) hyK, fun h => absurd (unSet_subset hT h) hyK⟩

/-! ### `shrink_set`, `unshrink_set`, `reshrink_sets` -/

theorem unshrinkSet_ok {K S : NodeSet} (h : S ⊆ Finset.range K.card) :
    unshrinkSet (ShrinkManager.new K).unshrinkTable S = .ok (unSet K S) := by
  unfold unshrinkSet
  rw [mapE_ok (h := un K)]
  · dsimp only
    congr 1
    ext x
    simp [unSet, ofList]
  · intro i hi
    have := Finset.mem_range.1 (h (mem_elems.1 hi))
    show (match (elems K)[i]? with | some old => Except.ok old | none => Except.error Panic.outOfBounds) = _
    rw [getElem?_elems this]

theorem unshrinkSet_error {K S : NodeSet} (h : ¬ S ⊆ Finset.range K.card) :
    unshrinkSet (ShrinkManager.new K).unshrinkTable S = .error .outOfBounds := by
  unfold unshrinkSet
  rw [Finset.not_subset] at h
  obtain ⟨i, hi, hiK⟩ := h
  rw [mapE_error (e := .outOfBounds) ?_ (mem_elems.2 hi)]
  · show (match (elems K)[i]? with | some old => Except.ok old | none => Except.error Panic.outOfBounds) = _
    rw [List.getElem?_eq_none]
    rw [length_elems]
    simpa using hiK
  · intro j _
    show (∃ b, (match (elems K)[j]? with
        | some old => Except.ok old
        | none => Except.error Panic.outOfBounds) = .ok b) ∨
      (match (elems K)[j]? with
        | some old => Except.ok old
        | none => Except.error Panic.outOfBounds) = .error .outOfBounds
    cases (elems K)[j]? with
    | none => right; rfl
    | some b => left; exact ⟨b, rfl⟩

theorem shrinkSet_ok_of {m : Map ℕ ℕ} {S : NodeSet} {g : ℕ → ℕ}
    (h : ∀ x ∈ S, m.get? x = some (g x)) : shrinkSet m S = .ok (S.image g) := by
  unfold shrinkSet
  rw [mapE_ok (h := g)]
  · dsimp only
    congr 1
    ext x
    simp [ofList]
  · intro i hi
    rw [h i (mem_elems.1 hi)]

theorem shrinkSet_error_of {m : Map ℕ ℕ} {S : NodeSet} {x : ℕ} (hx : x ∈ S)
    (h : m.get? x = none) : shrinkSet m S = .error .unwrapNone := by
  unfold shrinkSet
  rw [mapE_error (e := .unwrapNone) ?_ (mem_elems.2 hx)]
  · rw [h]
  · intro j _
    cases m.get? j with
    | none => right; rfl
    | some b => left; exact ⟨b, rfl⟩

theorem shrinkSet_ok {K S : NodeSet} (h : S ⊆ K) :
    shrinkSet (ShrinkManager.new K).shrinkMap S = .ok (shrSet K S) := by
  classical
  have hex : ∀ x ∈ S, ∃ i, (ShrinkManager.new K).shrinkMap.get? x = some i := by
    intro x hx
    obtain ⟨i, hi, rfl⟩ := un_surj (h hx)
    exact ⟨i, shrinkMap_un hi⟩
  have h2 : ∀ x ∈ S, (ShrinkManager.new K).shrinkMap.get? x =
      some (((ShrinkManager.new K).shrinkMap.get? x).getD 0) := by
    intro x hx
    obtain ⟨i, hi⟩ := hex x hx
    rw [hi]; rfl
  rw [shrinkSet_ok_of h2]
  congr 1
  ext i
  rw [Finset.mem_image, mem_shrSet]
  constructor
  · rintro ⟨x, hx, rfl⟩
    have := h2 x hx
    rw [shrinkMap_get?] at this
    exact ⟨this.1, by rw [this.2]; exact hx⟩
  · rintro ⟨hi, hx⟩
    exact ⟨_, hx, by rw [shrinkMap_un hi]; rfl⟩

theorem shrinkSet_error {K S : NodeSet} (h : ¬ S ⊆ K) :
    shrinkSet (ShrinkManager.new K).shrinkMap S = .error .unwrapNone := by
  rw [Finset.not_subset] at h
  obtain ⟨x, hx, hxK⟩ := h
  exact shrinkSet_error_of hx (shrinkMap_none.2 hxK)

theorem reshrinkMap_get? (K K' : NodeSet) (i j : ℕ) :
    ((ShrinkManager.new K').reshrinkMap (ShrinkManager.new K)).get? i = some j ↔
      i < K.card ∧ j < K'.card ∧ un K' j = un K i := by
  have hmem : ∀ i j, (i, j) ∈ (elems K).zipIdx.filterMap (fun p =>
      ((ShrinkManager.new K').shrinkMap.get? p.1).map (fun newId => (p.2, newId))) ↔
      i < K.card ∧ j < K'.card ∧ un K' j = un K i := by
    intro i j
    rw [List.mem_filterMap]
    constructor
    · rintro ⟨⟨x, k⟩, hp, h⟩
      rw [List.mk_mem_zipIdx_iff_getElem?] at hp
      have hk : k < K.card := by
        rw [← length_elems]
        exact (List.getElem?_eq_some_iff.1 hp).1
      rw [getElem?_elems hk] at hp
      have hp' := Option.some.inj hp
      dsimp only at h
      cases h' : (ShrinkManager.new K').shrinkMap.get? x with
      | none => rw [h'] at h; cases h
      | some l =>
        rw [h'] at h
        simp only [Option.map_some, Option.some.injEq, Prod.mk.injEq] at h
        obtain ⟨rfl, rfl⟩ := h
        obtain ⟨h1, h2⟩ := (shrinkMap_get? K' x l).1 h'
        exact ⟨hk, h1, by rw [h2, hp']⟩
    · rintro ⟨hi, hj, h⟩
      refine ⟨(un K i, i), ?_, ?_⟩
      · rw [List.mk_mem_zipIdx_iff_getElem?, getElem?_elems hi]
      · dsimp only
        rw [← h, shrinkMap_un hj]
        rfl
  have hnd : (((elems K).zipIdx.filterMap (fun p =>
      ((ShrinkManager.new K').shrinkMap.get? p.1).map (fun newId => (p.2, newId)))).map
        Prod.fst).Nodup := by
    have h0 : ((elems K).zipIdx.map Prod.snd).Nodup := by
      rw [List.zipIdx_map_snd]
      exact List.nodup_range' (step := 1)
    refine List.Nodup.sublist (l₂ := (elems K).zipIdx.map Prod.snd) ?_ h0
    rw [List.map_filterMap]
    generalize (elems K).zipIdx = l
    induction l with
    | nil => simp
    | cons p l ih =>
      rw [List.filterMap_cons, List.map_cons]
      cases (ShrinkManager.new K').shrinkMap.get? p.1 with
      | none => exact ih.cons _
      | some k => exact ih.cons_cons _
  show (Map.collect ((elems K).zipIdx.filterMap (fun p =>
      ((ShrinkManager.new K').shrinkMap.get? p.1).map (fun newId => (p.2, newId))))).get? i = _ ↔ _
  rw [Map.get?_collect hnd, hmem]

theorem reshrinkSet_ok {K K' S : NodeSet} (hS : S ⊆ Finset.range K.card) (h : unSet K S ⊆ K') :
    shrinkSet ((ShrinkManager.new K').reshrinkMap (ShrinkManager.new K)) S =
      .ok (shrSet K' (unSet K S)) := by
  have h2 : ∀ i ∈ S, ((ShrinkManager.new K').reshrinkMap (ShrinkManager.new K)).get? i =
      some ((((ShrinkManager.new K').reshrinkMap (ShrinkManager.new K)).get? i).getD 0) := by
    intro i hi
    obtain ⟨j, hj, he⟩ := un_surj (h (Finset.mem_image_of_mem _ hi))
    rw [(reshrinkMap_get? K K' i j).2 ⟨Finset.mem_range.1 (hS hi), hj, he⟩]
    rfl
  rw [shrinkSet_ok_of h2]
  congr 1
  ext j
  rw [Finset.mem_image, mem_shrSet]
  constructor
  · rintro ⟨i, hi, rfl⟩
    have h3 := (reshrinkMap_get? K K' i _).1 (h2 i hi)
    exact ⟨h3.2.1, by rw [h3.2.2]; exact Finset.mem_image_of_mem _ hi⟩
  · rintro ⟨hj, hx⟩
    obtain ⟨i, hi, he⟩ := Finset.mem_image.1 hx
    refine ⟨i, hi, ?_⟩
    rw [(reshrinkMap_get? K K' i j).2 ⟨Finset.mem_range.1 (hS hi), hj, he.symm⟩]
    rfl

theorem reshrinkSet_error {K K' S : NodeSet} (h : ¬ (S ⊆ Finset.range K.card ∧ unSet K S ⊆ K')) :
    shrinkSet ((ShrinkManager.new K').reshrinkMap (ShrinkManager.new K)) S =
      .error .unwrapNone := by
  have : ∃ i ∈ S, ((ShrinkManager.new K').reshrinkMap (ShrinkManager.new K)).get? i = none := by
    by_contra hc
    push Not at hc
    apply h
    have hg : ∀ i ∈ S, ∃ j, i < K.card ∧ j < K'.card ∧ un K' j = un K i := by
      intro i hi
      obtain ⟨j, hj⟩ := Option.ne_none_iff_exists'.1 (hc i hi)
      exact ⟨j, (reshrinkMap_get? K K' i j).1 hj⟩
    refine ⟨fun i hi => Finset.mem_range.2 (hg i hi).choose_spec.1, ?_⟩
    intro x hx
    obtain ⟨i, hi, rfl⟩ := Finset.mem_image.1 hx
    obtain ⟨j, _, hj, he⟩ := hg i hi
    rw [← he]
    exact un_mem hj
  obtain ⟨i, hi, hn⟩ := this
  exact shrinkSet_error_of hi hn

/-- Shrinking, unshrinking and reshrinking lists of sets. -/
theorem unshrinkSets_ok {K : NodeSet} {l : List NodeSet} (h : ∀ S ∈ l, S ⊆ Finset.range K.card) :
    unshrinkSets (ShrinkManager.new K).unshrinkTable l = .ok (l.map (unSet K)) :=
  mapE_ok (fun S hS => unshrinkSet_ok (h S hS))

theorem reshrinkSets_ok {K K' : NodeSet} {l : List NodeSet}
    (h : ∀ S ∈ l, S ⊆ Finset.range K.card) (h' : ∀ S ∈ l, unSet K S ⊆ K') :
    (ShrinkManager.new K').reshrinkSets l (ShrinkManager.new K) =
      .ok (l.map (fun S => shrSet K' (unSet K S))) :=
  mapE_ok (fun S hS => reshrinkSet_ok (h S hS) (h' S hS))

theorem reshrinkSets_eq_ok {K K' : NodeSet} {l r : List NodeSet} :
    (ShrinkManager.new K').reshrinkSets l (ShrinkManager.new K) = .ok r ↔
      ∃ m, unshrinkSets (ShrinkManager.new K).unshrinkTable l = .ok m ∧
        shrinkSets (ShrinkManager.new K').shrinkMap m = .ok r := by
  have key : ∀ S R, shrinkSet ((ShrinkManager.new K').reshrinkMap (ShrinkManager.new K)) S = .ok R ↔
      ∃ M, unshrinkSet (ShrinkManager.new K).unshrinkTable S = .ok M ∧
        shrinkSet (ShrinkManager.new K').shrinkMap M = .ok R := by
    intro S R
    by_cases h1 : S ⊆ Finset.range K.card
    · by_cases h2 : unSet K S ⊆ K'
      · rw [reshrinkSet_ok h1 h2, unshrinkSet_ok h1]
        constructor
        · intro h; exact ⟨_, rfl, by rw [shrinkSet_ok h2]; exact h⟩
        · rintro ⟨M, hM, h⟩
          rw [← Except.ok.inj hM, shrinkSet_ok h2] at h
          exact h
      · rw [reshrinkSet_error (by tauto), unshrinkSet_ok h1]
        constructor
        · intro h; cases h
        · rintro ⟨M, hM, h⟩
          rw [← Except.ok.inj hM, shrinkSet_error h2] at h
          cases h
    · rw [reshrinkSet_error (by tauto), unshrinkSet_error h1]
      constructor
      · intro h; cases h
      · rintro ⟨M, hM, h⟩
        cases hM
  unfold ShrinkManager.reshrinkSets shrinkSets unshrinkSets
  simp only [mapE_eq_ok]
  induction l generalizing r with
  | nil =>
    constructor
    · intro h; cases h; exact ⟨[], .nil, .nil⟩
    · rintro ⟨m, h1, h2⟩; cases h1; cases h2; exact .nil
  | cons S l ih =>
    constructor
    · intro h
      cases h with
      | cons h1 h2 =>
        obtain ⟨M, hM, hR⟩ := (key _ _).1 h1
        obtain ⟨m, hm, hr⟩ := ih.1 h2
        exact ⟨M :: m, .cons hM hm, .cons hR hr⟩
    · rintro ⟨m, h1, h2⟩
      cases h1 with
      | cons hM hm =>
        cases h2 with
        | cons hR hr => exact .cons ((key _ _).2 ⟨_, hM, hR⟩) (ih.2 ⟨_, hm, hr⟩)

/-! ### Shrunken quorum sets -/

theorem shrunkenList_eq (m : Map ℕ ℕ) (qs : List QuorumSet) :
    QuorumSet.shrunkenList m qs =
      (qs.map (QuorumSet.shrunken m)).filter (fun q => decide (q ≠ QuorumSet.empty)) := by
  induction qs with
  | nil => rfl
  | cons q qs ih =>
    rw [QuorumSet.shrunkenList, List.map_cons, List.filter_cons, ih]
    simp

theorem sortQs_perm (l : List QuorumSet) : (QuorumSet.sortQs l).Perm l :=
  List.perm_insertionSort _ _

theorem shrunken_inner_perm (m : Map ℕ ℕ) (q : QuorumSet) :
    (q.shrunken m).inner.Perm
      ((q.inner.map (QuorumSet.shrunken m)).filter (fun q => decide (q ≠ QuorumSet.empty))) := by
  obtain ⟨t, vs, qs⟩ := q
  rw [QuorumSet.shrunken]
  refine (sortQs_perm _).trans ?_
  rw [shrunkenList_eq]

theorem shrunken_validators_perm (m : Map ℕ ℕ) (q : QuorumSet) :
    (q.shrunken m).validators.Perm (q.validators.filterMap m.get?) := by
  obtain ⟨t, vs, qs⟩ := q
  rw [QuorumSet.shrunken]
  exact sortIds_perm _

theorem shrunken_threshold (m : Map ℕ ℕ) (q : QuorumSet) :
    (q.shrunken m).threshold = q.threshold := by
  obtain ⟨t, vs, qs⟩ := q
  rw [QuorumSet.shrunken]

theorem isQuorumSlice_empty (S : NodeSet) : QuorumSet.empty.isQuorumSlice S = false := by
  rw [← Bool.not_eq_true, QuorumSet.isQuorumSlice_iff]
  exact not_slice_empty S

theorem isQuorumSlice_shrunken {K S : NodeSet} (h : S ⊆ Finset.range K.card) (q : QuorumSet) :
    (q.shrunken (ShrinkManager.new K).shrinkMap).isQuorumSlice S =
      q.isQuorumSlice (unSet K S) := by
  induction q using QuorumSet.induct with
  | h t vs qs ih =>
    set m := (ShrinkManager.new K).shrinkMap with hm
    rw [Bool.eq_iff_iff, QuorumSet.isQuorumSlice_iff_count, QuorumSet.isQuorumSlice_iff_count,
      shrunken_threshold]
    have h1 : (((QuorumSet.shrunken m ⟨t, vs, qs⟩).validators).filter
        (fun x => decide (x ∈ S))).length = (vs.filter (fun x => decide (x ∈ unSet K S))).length := by
      rw [((shrunken_validators_perm m ⟨t, vs, qs⟩).filter _).length_eq]
      induction vs with
      | nil => rfl
      | cons v vs ihv =>
        have ihv' := ihv
        simp only at ihv' ⊢
        rw [List.filterMap_cons, List.filter_cons]
        cases hv : m.get? v with
        | none =>
          have : v ∉ unSet K S := fun hc => shrinkMap_none.1 hv (unSet_subset h hc)
          rw [if_neg (by simpa using this)]
          exact ihv'
        | some i =>
          obtain ⟨hi, rfl⟩ := (shrinkMap_get? K v i).1 hv
          dsimp only
          rw [List.filter_cons]
          by_cases hiS : i ∈ S
          · rw [if_pos (by simpa using hiS),
              if_pos (by simpa using (un_mem_unSet h hi).2 hiS), List.length_cons,
              List.length_cons, ihv']
          · rw [if_neg (by simpa using hiS),
              if_neg (by simpa using fun hc => hiS ((un_mem_unSet h hi).1 hc)), ihv']
    have h2 : ((QuorumSet.shrunken m ⟨t, vs, qs⟩).inner.filter (QuorumSet.isQuorumSlice S)).length =
        (qs.filter (QuorumSet.isQuorumSlice (unSet K S))).length := by
      rw [((shrunken_inner_perm m ⟨t, vs, qs⟩).filter _).length_eq]
      clear h1
      simp only
      induction qs with
      | nil => rfl
      | cons q qs ihq =>
        have ihq' := ihq (fun q hq => ih q (List.mem_cons_of_mem _ hq))
        have hq := ih q List.mem_cons_self
        rw [List.map_cons, List.filter_cons, List.filter_cons, ← hq]
        by_cases he : QuorumSet.shrunken m q = QuorumSet.empty
        · rw [if_neg (by simpa using he), if_neg, ihq']
          rw [he, isQuorumSlice_empty]
          simp
        · rw [if_pos (by simpa using he), List.filter_cons]
          by_cases hs : (QuorumSet.shrunken m q).isQuorumSlice S = true
          · rw [if_pos hs, if_pos hs, List.length_cons, List.length_cons, ihq']
          · rw [if_neg hs, if_neg hs, ihq']
    rw [h1, h2]

theorem slice_shrunken {K S : NodeSet} (h : S ⊆ Finset.range K.card) (q : QuorumSet) :
    Slice S (q.shrunken (ShrinkManager.new K).shrinkMap) ↔ Slice (unSet K S) q := by
  rw [← QuorumSet.isQuorumSlice_iff, ← QuorumSet.isQuorumSlice_iff, isQuorumSlice_shrunken h]

theorem mentions_shrunken {K : NodeSet} {q : QuorumSet} {i : ℕ} :
    Mentions (q.shrunken (ShrinkManager.new K).shrinkMap) i ↔ i < K.card ∧ Mentions q (un K i) := by
  induction q using QuorumSet.induct with
  | h t vs qs ih =>
    set m := (ShrinkManager.new K).shrinkMap with hm
    have hv : i ∈ (QuorumSet.shrunken m ⟨t, vs, qs⟩).validators ↔ i < K.card ∧ un K i ∈ vs := by
      rw [(shrunken_validators_perm m ⟨t, vs, qs⟩).mem_iff, List.mem_filterMap]
      constructor
      · rintro ⟨v, hv, h⟩
        obtain ⟨hi, rfl⟩ := (shrinkMap_get? K v i).1 h
        exact ⟨hi, hv⟩
      · rintro ⟨hi, hv⟩
        exact ⟨_, hv, shrinkMap_un hi⟩
    have hin : ∀ q', q' ∈ (QuorumSet.shrunken m ⟨t, vs, qs⟩).inner ↔
        ∃ q ∈ qs, q.shrunken m = q' ∧ q' ≠ QuorumSet.empty := by
      intro q'
      rw [(shrunken_inner_perm m ⟨t, vs, qs⟩).mem_iff, List.mem_filter, List.mem_map]
      simp only [decide_eq_true_eq]
      constructor
      · rintro ⟨⟨q, hq, rfl⟩, h⟩; exact ⟨q, hq, rfl, h⟩
      · rintro ⟨q, hq, rfl, h⟩; exact ⟨⟨q, hq, rfl⟩, h⟩
    constructor
    · intro h
      cases h with
      | validator h => obtain ⟨hi, h'⟩ := hv.1 h; exact ⟨hi, .validator h'⟩
      | inner hq' h =>
        obtain ⟨q, hq, rfl, _⟩ := (hin _).1 hq'
        obtain ⟨hi, h'⟩ := (ih q hq).1 h
        exact ⟨hi, .inner hq h'⟩
    · rintro ⟨hi, h⟩
      cases h with
      | validator h => exact .validator (hv.2 ⟨hi, h⟩)
      | inner hq h =>
        have hm' := (ih _ hq).2 ⟨hi, h⟩
        refine .inner ((hin _).2 ⟨_, hq, rfl, ?_⟩) hm'
        intro he
        rw [he] at hm'
        cases hm' with
        | validator h => simp [QuorumSet.empty] at h
        | inner h => simp [QuorumSet.empty] at h

/-! ### Shrunken FBASs -/

theorem genericNodeName_inj {i j : ℕ} (h : Fbas.genericNodeName i = Fbas.genericNodeName j) :
    i = j := by
  unfold Fbas.genericNodeName at h
  have h1 := (String.append_right_inj _).1 h
  rw [Nat.toString_eq_ofList_toDigits, Nat.toString_eq_ofList_toDigits] at h1
  have h2 := congrArg String.toList h1
  rw [String.toList_ofList, String.toList_ofList] at h2
  have h3 := congrArg (fun l => Nat.ofDigitChars 10 l 0) h2
  simpa using h3

theorem addGenericUnconfigured_ok (k : ℕ) (f : Fbas)
    (h : ∀ i, f.nodes.length ≤ i → f.pkToId.get? (Fbas.genericNodeName i) = none)
    (he : ∀ n ∈ f.nodes, n.quorumSet = QuorumSet.empty) :
    ∃ g, Fbas.addGenericUnconfigured k f = .ok g ∧ g.nodes.length = f.nodes.length + k ∧
      ∀ n ∈ g.nodes, n.quorumSet = QuorumSet.empty := by
  induction k generalizing f with
  | zero => exact ⟨f, rfl, rfl, he⟩
  | succ k ih =>
    rw [Fbas.addGenericUnconfigured, Fbas.addGenericNode, Fbas.addNode]
    dsimp only
    rw [h _ (Nat.le_refl _)]
    dsimp only
    obtain ⟨g, hg, hl, hge⟩ := ih ⟨f.nodes ++ [⟨Fbas.genericNodeName f.nodes.length, QuorumSet.empty⟩],
      Map.insert f.pkToId (Fbas.genericNodeName f.nodes.length) f.nodes.length⟩ (by
        intro i hi
        simp only [List.length_append, List.length_singleton] at hi
        rw [Map.get?_insert, if_neg]
        · exact h i (by omega)
        · intro hc
          have := genericNodeName_inj hc
          omega)
      (by
        intro n hn
        rcases List.mem_append.1 hn with h' | h'
        · exact he n h'
        · rw [List.mem_singleton.1 h'])
    refine ⟨g, hg, ?_, hge⟩
    rw [hl]
    simp only [List.length_append, List.length_singleton]
    omega

theorem newGenericUnconfigured_ok (n : ℕ) :
    ∃ g, Fbas.newGenericUnconfigured n = .ok g ∧ g.nodes.length = n ∧
      ∀ n ∈ g.nodes, n.quorumSet = QuorumSet.empty := by
  obtain ⟨g, hg, hl, he⟩ := addGenericUnconfigured_ok n Fbas.new (fun i _ => rfl)
    (fun n hn => by simp [Fbas.new] at hn)
  exact ⟨g, hg, by simpa [Fbas.new] using hl, he⟩

theorem shrunkenLoop_ok (f : Fbas) (K : NodeSet) (l : List ℕ) (nodes : List Node)
    (hlen : nodes.length = K.card) (hl : ∀ x ∈ l, x < f.nodes.length) :
    ∃ nodes', f.shrunkenLoop (ShrinkManager.new K).shrinkMap l nodes = .ok nodes' ∧
      nodes'.length = K.card ∧
      ∀ i < K.card, nodes'[i]? = if un K i ∈ l then
        (f.nodes[un K i]?).map (Node.shrunken (ShrinkManager.new K).shrinkMap) else nodes[i]? := by
  induction l generalizing nodes with
  | nil => exact ⟨nodes, rfl, hlen, fun i _ => by simp⟩
  | cons x l ih =>
    rw [Fbas.shrunkenLoop]
    have hl' := fun y hy => hl y (List.mem_cons_of_mem _ hy)
    cases hx : (ShrinkManager.new K).shrinkMap.get? x with
    | none =>
      dsimp only
      obtain ⟨nodes', h1, h2, h3⟩ := ih nodes hlen hl'
      refine ⟨nodes', h1, h2, fun i hi => ?_⟩
      rw [h3 i hi]
      have hne : un K i ≠ x := fun hc => shrinkMap_none.1 hx (hc ▸ un_mem hi)
      simp only [List.mem_cons, hne, false_or]
    | some j =>
      obtain ⟨hj, rfl⟩ := (shrinkMap_get? K x j).1 hx
      dsimp only
      have hlt := hl _ List.mem_cons_self
      rw [List.getElem?_eq_getElem hlt]
      dsimp only
      rw [if_pos (hlen.symm ▸ hj)]
      obtain ⟨nodes', h1, h2, h3⟩ := ih (nodes.set j
        ((f.nodes[un K j]).shrunken (ShrinkManager.new K).shrinkMap))
        (by rw [List.length_set]; exact hlen) hl'
      refine ⟨nodes', h1, h2, fun i hi => ?_⟩
      rw [h3 i hi]
      by_cases hil : un K i ∈ l
      · rw [if_pos hil, if_pos (List.mem_cons_of_mem _ hil)]
      · rw [if_neg hil]
        by_cases hij : i = j
        · subst hij
          rw [if_pos List.mem_cons_self, List.getElem?_set_self (hlen.symm ▸ hi),
            List.getElem?_eq_getElem hlt]
          rfl
        · rw [List.getElem?_set_ne (Ne.symm hij), if_neg]
          rw [List.mem_cons, not_or]
          exact ⟨fun hc => hij (un_inj hi hj hc), hil⟩

/-- What `Fbas::shrunken` returns. -/
structure IsShrunken (f : Fbas) (K : NodeSet) (f' : Fbas) : Prop where
  len : f'.nodes.length = K.card
  qset : ∀ i < K.card, f'.qset i = (f.qset (un K i)).shrunken (ShrinkManager.new K).shrinkMap

theorem shrunken_empty (m : Map ℕ ℕ) : QuorumSet.empty.shrunken m = QuorumSet.empty := by
  simp [QuorumSet.empty, QuorumSet.shrunken, QuorumSet.shrunkenList, sortIds, QuorumSet.sortQs]

theorem Fbas.shrunken_ok (f : Fbas) (K : NodeSet) :
    ∃ f', f.shrunken K = .ok (f', ShrinkManager.new K) ∧ IsShrunken f K f' := by
  obtain ⟨g, hg, hgl, hge⟩ := newGenericUnconfigured_ok (elems K).length
  obtain ⟨nodes', h1, h2, h3⟩ := shrunkenLoop_ok f K (List.range f.nodes.length) g.nodes
    (by rw [hgl, length_elems]) (fun x hx => List.mem_range.1 hx)
  refine ⟨⟨nodes', g.pkToId⟩, ?_, h2, ?_⟩
  · unfold Fbas.shrunken
    dsimp only
    rw [show (ShrinkManager.new K).unshrinkTable.length = (elems K).length from rfl, hg]
    dsimp only
    rw [h1]
  · intro i hi
    unfold Fbas.qset
    rw [h3 i hi]
    by_cases hlt : un K i < f.nodes.length
    · rw [if_pos (List.mem_range.2 hlt), List.getElem?_eq_getElem hlt]
      rfl
    · rw [if_neg (fun hc => hlt (List.mem_range.1 hc)),
        List.getElem?_eq_none (l := f.nodes) (Nat.le_of_not_lt hlt)]
      have hi' : i < g.nodes.length := by rw [hgl, length_elems]; exact hi
      rw [List.getElem?_eq_getElem hi']
      dsimp only
      rw [hge _ (List.getElem_mem hi'), shrunken_empty]

section
variable {f f' : Fbas} {K : NodeSet}

theorem IsShrunken.subset (h : IsShrunken f K f') : f'.allNodes = Finset.range K.card := by
  rw [Fbas.allNodes, h.len]

theorem IsShrunken.isQuorum (h : IsShrunken f K f') {S : NodeSet}
    (hS : S ⊆ Finset.range K.card) : IsQuorum f' S ↔ IsQuorum f (unSet K S) := by
  rw [isQuorum_iff, isQuorum_iff]
  refine and_congr ?_ ?_
  · rw [unSet, Finset.image_nonempty]
  · constructor
    · intro hq x hx
      obtain ⟨i, hi, rfl⟩ := Finset.mem_image.1 hx
      have := hq i hi
      rwa [h.qset i (Finset.mem_range.1 (hS hi)), slice_shrunken hS] at this
    · intro hq i hi
      rw [h.qset i (Finset.mem_range.1 (hS hi)), slice_shrunken hS]
      exact hq _ (Finset.mem_image_of_mem _ hi)

theorem IsShrunken.quorum_subset (h : IsShrunken f K f') {S : NodeSet} (hS : IsQuorum f' S) :
    S ⊆ Finset.range K.card := h.subset ▸ hS.subset_all

theorem IsShrunken.wf (h : IsShrunken f K f') : WF f' := by
  intro i j hij
  rw [trusts_iff] at hij
  by_cases hi : i < K.card
  · rw [h.qset i hi, mentions_shrunken] at hij
    rw [h.len]
    exact hij.1
  · rw [Fbas.qset_of_ge (by rw [h.len]; exact Nat.le_of_not_lt hi)] at hij
    cases hij with
    | validator h => simp [QuorumSet.empty] at h
    | inner h => simp [QuorumSet.empty] at h

/-- `K` contains every minimal quorum. -/
def Covers (f : Fbas) (K : NodeSet) : Prop := ∀ Q, IsMinQuorum f Q → Q ⊆ K

theorem IsShrunken.isMinQuorum (h : IsShrunken f K f') {S : NodeSet} :
    IsMinQuorum f' S ↔ S ⊆ Finset.range K.card ∧ IsMinQuorum f (unSet K S) := by
  rw [isMinQuorum_iff, isMinQuorum_iff]
  constructor
  · rintro ⟨hq, hmin⟩
    have hS := h.quorum_subset hq
    refine ⟨hS, (h.isQuorum hS).1 hq, ?_⟩
    intro P hP hPS
    have hPK : P ⊆ K := hPS.trans (unSet_subset hS)
    have h1 : IsQuorum f' (shrSet K P) := by
      rw [h.isQuorum (shrSet_subset K P), unSet_shrSet_of_subset hPK]
      exact hP
    have h2 := hmin _ h1 (by
      rw [← unSet_subset_iff (shrSet_subset K P) hS, unSet_shrSet_of_subset hPK]
      exact hPS)
    rw [← unSet_shrSet_of_subset hPK, h2]
  · rintro ⟨hS, hq, hmin⟩
    refine ⟨(h.isQuorum hS).2 hq, ?_⟩
    intro P hP hPS
    have hP' := hPS.trans hS
    exact unSet_injOn hP' hS (hmin _ ((h.isQuorum hP').1 hP) (Finset.image_subset_image hPS))

theorem IsShrunken.isMinQuorum_shrSet (h : IsShrunken f K f') (hc : Covers f K) {Q : NodeSet}
    (hQ : IsMinQuorum f Q) : IsMinQuorum f' (shrSet K Q) := by
  rw [h.isMinQuorum, unSet_shrSet_of_subset (hc Q hQ)]
  exact ⟨shrSet_subset K Q, hQ⟩

theorem IsShrunken.exists_quorum (h : IsShrunken f K f') (hc : Covers f K) :
    (∃ Q, IsQuorum f' Q) ↔ ∃ Q, IsQuorum f Q := by
  constructor
  · rintro ⟨Q, hQ⟩; exact ⟨_, (h.isQuorum (h.quorum_subset hQ)).1 hQ⟩
  · rintro ⟨Q, hQ⟩
    obtain ⟨Q', hQ', _⟩ := hQ.exists_min
    exact ⟨_, (h.isMinQuorum_shrSet hc hQ').prop⟩

theorem blocking_iff_min {f : Fbas} {B : NodeSet} :
    Blocking f B ↔ ∀ Q, IsMinQuorum f Q → ∃ x, x ∈ Q ∧ x ∈ B := by
  constructor
  · exact fun h Q hQ => h Q hQ.prop
  · intro h Q hQ
    obtain ⟨Q', hQ', hsub⟩ := hQ.exists_min
    obtain ⟨x, hx, hxB⟩ := h Q' hQ'
    exact ⟨x, hsub hx, hxB⟩

theorem IsShrunken.blocking (h : IsShrunken f K f') (hc : Covers f K) {B : NodeSet}
    (hB : B ⊆ Finset.range K.card) : Blocking f' B ↔ Blocking f (unSet K B) := by
  rw [blocking_iff_min, blocking_iff_min]
  constructor
  · intro hb Q hQ
    obtain ⟨i, hi, hiB⟩ := hb _ (h.isMinQuorum_shrSet hc hQ)
    exact ⟨un K i, (mem_shrSet.1 hi).2, Finset.mem_image_of_mem _ hiB⟩
  · intro hb Q hQ
    obtain ⟨hQs, hQ'⟩ := h.isMinQuorum.1 hQ
    obtain ⟨x, hx, hxB⟩ := hb _ hQ'
    obtain ⟨i, hi, rfl⟩ := Finset.mem_image.1 hx
    exact ⟨i, hi, (un_mem_unSet hB (Finset.mem_range.1 (hQs hi))).1 hxB⟩

theorem IsShrunken.splitting (h : IsShrunken f K f') (hc : Covers f K) {B : NodeSet}
    (hB : B ⊆ Finset.range K.card) : Splitting f' B ↔ Splitting f (unSet K B) := by
  constructor
  · rintro ⟨P, Q, hP, hQ, hne, hsub⟩
    obtain ⟨hPs, hP'⟩ := h.isMinQuorum.1 hP
    obtain ⟨hQs, hQ'⟩ := h.isMinQuorum.1 hQ
    refine ⟨_, _, hP', hQ', fun he => hne (unSet_injOn hPs hQs he), ?_⟩
    intro x hx
    obtain ⟨hxP, hxQ⟩ := Finset.mem_inter.1 hx
    obtain ⟨i, hi, rfl⟩ := Finset.mem_image.1 hxP
    have := (un_mem_unSet hQs (Finset.mem_range.1 (hPs hi))).1 hxQ
    exact Finset.mem_image_of_mem _ (hsub (Finset.mem_inter.2 ⟨hi, this⟩))
  · rintro ⟨P, Q, hP, hQ, hne, hsub⟩
    refine ⟨_, _, h.isMinQuorum_shrSet hc hP, h.isMinQuorum_shrSet hc hQ, ?_, ?_⟩
    · intro he
      apply hne
      rw [← unSet_shrSet_of_subset (hc P hP), ← unSet_shrSet_of_subset (hc Q hQ), he]
    · intro i hi
      obtain ⟨hiP, hiQ⟩ := Finset.mem_inter.1 hi
      have hiP' := mem_shrSet.1 hiP
      exact (un_mem_unSet hB hiP'.1).1
        (hsub (Finset.mem_inter.2 ⟨hiP'.2, (mem_shrSet.1 hiQ).2⟩))

/-- Minimal sets of a property that only depends on members of `K`. -/
theorem minimal_shrunken {P' P : NodeSet → Prop}
    (hiff : ∀ S, S ⊆ Finset.range K.card → (P' S ↔ P (unSet K S)))
    (hin' : ∀ S, P' S → P' (S ∩ Finset.range K.card)) (S : NodeSet) :
    Minimal P' S ↔ S ⊆ Finset.range K.card ∧ Minimal P (unSet K S) := by
  constructor
  · intro hm
    have hS : S ⊆ Finset.range K.card := by
      have := hm.le_of_le (hin' S hm.prop) Finset.inter_subset_left
      exact fun x hx => (Finset.mem_inter.1 (this hx)).2
    refine ⟨hS, (hiff S hS).1 hm.prop, ?_⟩
    intro T hT hTS
    have hTK : T ⊆ K := hTS.trans (unSet_subset hS)
    have h1 : P' (shrSet K T) := by
      rw [hiff _ (shrSet_subset K T), unSet_shrSet_of_subset hTK]
      exact hT
    have h2 := hm.le_of_le h1 (by
      rw [← unSet_subset_iff (shrSet_subset K T) hS,
        unSet_shrSet_of_subset hTK]
      exact hTS)
    rw [← unSet_subset_iff hS (shrSet_subset K T),
      unSet_shrSet_of_subset hTK] at h2
    exact h2
  · rintro ⟨hS, hm⟩
    refine ⟨(hiff S hS).2 hm.prop, ?_⟩
    intro T hT hTS
    have hT' : T ⊆ Finset.range K.card := hTS.trans hS
    exact (unSet_subset_iff hS hT').1
      (hm.le_of_le ((hiff T hT').1 hT) (Finset.image_subset_image hTS))

theorem IsShrunken.isMinBlocking (h : IsShrunken f K f') (hc : Covers f K) (S : NodeSet) :
    IsMinBlocking f' S ↔ S ⊆ Finset.range K.card ∧ IsMinBlocking f (unSet K S) := by
  refine minimal_shrunken (fun S hS => h.blocking hc hS) ?_ S
  intro S hS Q hQ
  obtain ⟨x, hx, hxS⟩ := hS Q hQ
  exact ⟨x, hx, Finset.mem_inter.2 ⟨hxS, h.quorum_subset hQ hx⟩⟩

theorem IsShrunken.isMinSplitting (h : IsShrunken f K f') (hc : Covers f K) (S : NodeSet) :
    IsMinSplitting f' S ↔ S ⊆ Finset.range K.card ∧ IsMinSplitting f (unSet K S) := by
  refine minimal_shrunken (fun S hS => h.splitting hc hS) ?_ S
  rintro S ⟨P, Q, hP, hQ, hne, hsub⟩
  refine ⟨P, Q, hP, hQ, hne, ?_⟩
  intro x hx
  exact Finset.mem_inter.2 ⟨hsub hx, h.quorum_subset hP.prop (Finset.mem_inter.1 hx).1⟩

theorem quorumIntersection_iff_min {f : Fbas} : QuorumIntersection f ↔
    (∃ Q, IsMinQuorum f Q) ∧
      ∀ P Q, IsMinQuorum f P → IsMinQuorum f Q → ∃ x, x ∈ P ∧ x ∈ Q := by
  constructor
  · rintro ⟨⟨Q, hQ⟩, h⟩
    obtain ⟨Q', hQ', _⟩ := hQ.exists_min
    exact ⟨⟨Q', hQ'⟩, fun P Q hP hQ => h P Q hP.prop hQ.prop⟩
  · rintro ⟨⟨Q, hQ⟩, h⟩
    refine ⟨⟨Q, hQ.prop⟩, fun P Q hP hQ => ?_⟩
    obtain ⟨P', hP', hPs⟩ := hP.exists_min
    obtain ⟨Q', hQ', hQs⟩ := hQ.exists_min
    obtain ⟨x, hx, hx'⟩ := h P' Q' hP' hQ'
    exact ⟨x, hPs hx, hQs hx'⟩

theorem IsShrunken.quorumIntersection (h : IsShrunken f K f') (hc : Covers f K) :
    QuorumIntersection f' ↔ QuorumIntersection f := by
  rw [quorumIntersection_iff_min, quorumIntersection_iff_min]
  constructor
  · rintro ⟨⟨Q, hQ⟩, hi⟩
    refine ⟨⟨_, (h.isMinQuorum.1 hQ).2⟩, fun P Q hP hQ => ?_⟩
    obtain ⟨i, hi1, hi2⟩ := hi _ _ (h.isMinQuorum_shrSet hc hP) (h.isMinQuorum_shrSet hc hQ)
    exact ⟨un K i, (mem_shrSet.1 hi1).2, (mem_shrSet.1 hi2).2⟩
  · rintro ⟨⟨Q, hQ⟩, hi⟩
    refine ⟨⟨_, h.isMinQuorum_shrSet hc hQ⟩, fun P Q hP hQ => ?_⟩
    obtain ⟨hPs, hP'⟩ := h.isMinQuorum.1 hP
    obtain ⟨hQs, hQ'⟩ := h.isMinQuorum.1 hQ
    obtain ⟨x, hx, hx'⟩ := hi _ _ hP' hQ'
    obtain ⟨i, hi, rfl⟩ := Finset.mem_image.1 hx
    exact ⟨i, hi, (un_mem_unSet hQs (Finset.mem_range.1 (hPs hi))).1 hx'⟩

end
end FA
