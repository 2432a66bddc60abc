import Verif.Lemmas.IoQuorums

/-!
# Reordering raw quorum sets and raw FBASs
-/

namespace FA
open Spec QuorumSet

theorem _root_.FA.Spec.SameQSet.refl (q : RawQuorumSet) : SameQSet q q := by
  obtain ⟨t, vs, qs⟩ := q
  exact .validators t qs (.refl _)

theorem _root_.FA.Spec.SameQSet.symm {a b : RawQuorumSet} (h : SameQSet a b) : SameQSet b a := by
  induction h with
  | validators t qs h => exact .validators t qs h.symm
  | inner t vs h => exact .inner t vs h.symm
  | nested t vs l₁ l₂ _ ih => exact .nested t vs l₁ l₂ ih
  | trans _ _ ih1 ih2 => exact .trans ih2 ih1

theorem _root_.FA.Spec.SameQSet.of_forall₂ (t : ℕ) (vs : List PublicKey) {l l' : List RawQuorumSet}
    (h : List.Forall₂ SameQSet l l') : SameQSet ⟨t, vs, l⟩ ⟨t, vs, l'⟩ := by
  have key : ∀ pre, SameQSet ⟨t, vs, pre ++ l⟩ ⟨t, vs, pre ++ l'⟩ := by
    induction h with
    | nil => intro pre; exact SameQSet.refl _
    | @cons a b la lb hab _ ih =>
      intro pre
      have h1 := ih (pre ++ [a])
      simp only [List.append_assoc, List.singleton_append] at h1
      exact .trans h1 (.nested t vs pre lb hab)
  exact key []

theorem fromRaw_same {m : Map PublicKey ℕ} {a b : RawQuorumSet} (h : SameQSet a b) :
    fromRaw m a = fromRaw m b := by
  induction h with
  | validators t qs h =>
    rw [fromRaw_eq, fromRaw_eq]
    dsimp only
    rw [sortIds_of_perm (h.filterMap _)]
  | inner t vs h =>
    rw [fromRaw_eq, fromRaw_eq]
    dsimp only
    rw [sortQs_of_perm (h.map _)]
  | nested t vs l₁ l₂ _ ih =>
    rw [fromRaw_eq, fromRaw_eq]
    dsimp only
    rw [List.map_append, List.map_cons, ih, List.map_append, List.map_cons]
  | trans _ _ ih1 ih2 => exact ih1.trans ih2

theorem mentions_same {a b : RawQuorumSet} (h : SameQSet a b) (p : PublicKey) :
    RawMentions a p ↔ RawMentions b p := by
  have hiff : ∀ t vs qs, RawMentions ⟨t, vs, qs⟩ p ↔ p ∈ vs ∨ ∃ q ∈ qs, RawMentions q p := by
    intro t vs qs
    constructor
    · intro h
      cases h with
      | validator h => exact .inl h
      | inner hq h => exact .inr ⟨_, hq, h⟩
    · rintro (h | ⟨q, hq, h⟩)
      · exact .validator h
      · exact .inner hq h
  induction h with
  | validators t qs h => rw [hiff, hiff, h.mem_iff]
  | inner t vs h =>
    rw [hiff, hiff]
    simp only [h.mem_iff]
  | nested t vs l₁ l₂ _ ih =>
    rw [hiff, hiff]
    simp only [List.mem_append, List.mem_cons]
    refine or_congr Iff.rfl ⟨?_, ?_⟩
    · rintro ⟨q, h1 | rfl | h1, h2⟩
      · exact ⟨q, .inl h1, h2⟩
      · exact ⟨_, .inr (.inl rfl), ih.1 h2⟩
      · exact ⟨q, .inr (.inr h1), h2⟩
    · rintro ⟨q, h1 | rfl | h1, h2⟩
      · exact ⟨q, .inl h1, h2⟩
      · exact ⟨_, .inr (.inl rfl), ih.2 h2⟩
      · exact ⟨q, .inr (.inr h1), h2⟩
  | trans _ _ ih1 ih2 => exact ih1.trans ih2

theorem slice_same {a b : RawQuorumSet} (h : SameQSet a b) (P : Finset PublicKey) :
    RawSlice P a ↔ RawSlice P b := by
  classical
  induction h with
  | validators t qs h =>
    rw [rawSlice_iff_count, rawSlice_iff_count]
    dsimp only
    rw [(h.filter _).length_eq]
  | inner t vs h =>
    rw [rawSlice_iff_count, rawSlice_iff_count]
    dsimp only
    rw [(h.filter _).length_eq]
  | nested t vs l₁ l₂ _ ih =>
    rw [rawSlice_iff_count, rawSlice_iff_count]
    dsimp only
    simp only [List.filter_append, List.filter_cons, List.length_append, ih]
    split <;> rfl
  | trans _ _ ih1 ih2 => exact ih1.trans ih2

/-! ### Raw FBASs -/

/-- Same public key and quorum sets that differ only in order. -/
def SameNode (a b : RawNode) : Prop :=
  a.publicKey = b.publicKey ∧ SameQSet a.quorumSet b.quorumSet

theorem SameNode.symm {a b : RawNode} (h : SameNode a b) : SameNode b a := ⟨h.1.symm, h.2.symm⟩
theorem SameNode.refl (a : RawNode) : SameNode a a := ⟨rfl, SameQSet.refl _⟩
theorem SameNode.trans {a b c : RawNode} (h : SameNode a b) (h' : SameNode b c) : SameNode a c :=
  ⟨h.1.trans h'.1, .trans h.2 h'.2⟩

theorem forall₂_keys {r r' : RawFbas} (h : List.Forall₂ SameNode r r') :
    r.map RawNode.publicKey = r'.map RawNode.publicKey := by
  induction h with
  | nil => rfl
  | cons h _ ih => rw [List.map_cons, List.map_cons, h.1, ih]

theorem fromRaw_forall₂ {r r' : RawFbas} (h : List.Forall₂ SameNode r r') :
    Fbas.fromRaw r = Fbas.fromRaw r' := by
  unfold Fbas.fromRaw
  dsimp only
  rw [rawIds_congr (forall₂_keys h)]
  congr 1
  generalize Fbas.rawIds r' = m
  induction h with
  | nil => rfl
  | cons h _ ih =>
    rw [List.map_cons, List.map_cons, ih]
    congr 1
    unfold Node.fromRaw
    rw [h.1, fromRaw_same h.2]

theorem _root_.FA.Spec.Reordered.symm {r r' : RawFbas} (h : Reordered r r') : Reordered r' r := by
  obtain ⟨l, hp, hf⟩ := h
  have hf' : List.Forall₂ SameNode r' l := by
    have : List.Forall₂ (flip SameNode) r' l := hf.flip
    exact this.imp (fun a b h => SameNode.symm h)
  have h : Relation.Comp (List.Forall₂ SameNode) List.Perm r' r := ⟨l, hf', hp.symm⟩
  rw [List.forall₂_comp_perm_eq_perm_comp_forall₂] at h
  exact h

theorem _root_.FA.Spec.Reordered.mem {r r' : RawFbas} (h : Reordered r r') {a : RawNode} (ha : a ∈ r) :
    ∃ b ∈ r', SameNode a b := by
  obtain ⟨l, hp, hf⟩ := h
  have ha' := hp.mem_iff.1 ha
  obtain ⟨i, hi, rfl⟩ := List.getElem_of_mem ha'
  have := List.forall₂_iff_get.1 hf
  exact ⟨r'[i]'(this.1 ▸ hi), List.getElem_mem _, this.2 i hi (this.1 ▸ hi)⟩

theorem _root_.FA.Spec.Reordered.rawQuorum {r r' : RawFbas} (h : Reordered r r') {P : Finset PublicKey} :
    RawQuorum r P ↔ RawQuorum r' P := by
  have key : ∀ {r r' : RawFbas}, Reordered r r' → RawQuorum r P → RawQuorum r' P := by
    rintro r r' h ⟨h1, h2⟩
    refine ⟨h1, fun p hp => ?_⟩
    obtain ⟨n, hn, rfl, hs⟩ := h2 p hp
    obtain ⟨n', hn', hsame⟩ := h.mem hn
    exact ⟨n', hn', hsame.1.symm, (slice_same hsame.2 P).1 hs⟩
  exact ⟨key h, key h.symm⟩

theorem _root_.FA.Spec.Reordered.rawReaches {r r' : RawFbas} (h : Reordered r r') {a b : PublicKey} :
    RawReaches r a b ↔ RawReaches r' a b := by
  have key : ∀ {r r' : RawFbas}, Reordered r r' → ∀ a b, RawTrusts r a b → RawTrusts r' a b := by
    rintro r r' h a b ⟨n, hn, hp, hm⟩
    obtain ⟨n', hn', hsame⟩ := h.mem hn
    exact ⟨n', hn', hsame.1.symm.trans hp, (mentions_same hsame.2 b).1 hm⟩
  exact ⟨fun h' => Relation.ReflTransGen.mono (key h) _ _ h',
    fun h' => Relation.ReflTransGen.mono (key h.symm) _ _ h'⟩

theorem _root_.FA.Spec.Reordered.relevant {r r' : RawFbas} (h : Reordered r r') (p : PublicKey) :
    RawRelevant r p ↔ RawRelevant r' p := by
  unfold RawRelevant
  simp only [h.rawQuorum, h.rawReaches]

theorem _root_.FA.Spec.Reordered.keys {r r' : RawFbas} (h : Reordered r r') :
    (r.map RawNode.publicKey).Perm (r'.map RawNode.publicKey) := by
  obtain ⟨l, hp, hf⟩ := h
  exact (hp.map _).trans (by rw [forall₂_keys hf])

/-! ### Sorting by public key -/

theorem sortByKey_perm (r : RawFbas) : (Fbas.sortByKey r).Perm r := List.perm_insertionSort _ _

instance : Std.Total (fun a b : RawNode => a.publicKey ≤ b.publicKey) :=
  ⟨fun a b => le_total a.publicKey b.publicKey⟩
instance : IsTrans RawNode (fun a b : RawNode => a.publicKey ≤ b.publicKey) :=
  ⟨fun _ _ _ h h' => le_trans h h'⟩

theorem sortByKey_pairwise (r : RawFbas) :
    (Fbas.sortByKey r).Pairwise (fun a b => a.publicKey ≤ b.publicKey) :=
  List.pairwise_insertionSort _ _

theorem eq_of_key {r : RawFbas} (hd : DistinctKeys r) {a b : RawNode} (ha : a ∈ r) (hb : b ∈ r)
    (h : a.publicKey = b.publicKey) : a = b := by
  exact List.inj_on_of_nodup_map hd ha hb h

theorem sortByKey_of_perm {r r' : RawFbas} (hd : DistinctKeys r) (h : r.Perm r') :
    Fbas.sortByKey r = Fbas.sortByKey r' := by
  have hp := ((sortByKey_perm r).trans h).trans (sortByKey_perm r').symm
  refine List.Perm.eq_of_pairwise ?_ (sortByKey_pairwise r) (sortByKey_pairwise r') hp
  intro a b ha hb h1 h2
  exact eq_of_key hd ((sortByKey_perm r).mem_iff.1 ha)
    ((h.mem_iff).2 ((sortByKey_perm r').mem_iff.1 hb)) (le_antisymm h1 h2)

theorem sortByKey_of_pairwise {r : RawFbas} (h : r.Pairwise (fun a b => a.publicKey ≤ b.publicKey)) :
    Fbas.sortByKey r = r := h.insertionSort_eq

theorem orderedInsert_forall₂ {a b : RawNode} (hab : SameNode a b) {r r' : RawFbas}
    (h : List.Forall₂ SameNode r r') :
    List.Forall₂ SameNode (r.orderedInsert (fun a b => a.publicKey ≤ b.publicKey) a)
      (r'.orderedInsert (fun a b => a.publicKey ≤ b.publicKey) b) := by
  induction h with
  | nil => exact .cons hab .nil
  | @cons c d r r' hcd hr ih =>
    rw [List.orderedInsert_cons, List.orderedInsert_cons, hab.1, hcd.1]
    split
    · exact .cons hab (.cons hcd hr)
    · exact .cons hcd ih

theorem sortByKey_forall₂ {r r' : RawFbas} (h : List.Forall₂ SameNode r r') :
    List.Forall₂ SameNode (Fbas.sortByKey r) (Fbas.sortByKey r') := by
  induction h with
  | nil => exact .nil
  | cons h _ ih => exact orderedInsert_forall₂ h ih

/-- Loading after sorting by public key only depends on the content. -/
theorem fromRaw_sortByKey {r r' : RawFbas} (hd : DistinctKeys r) (h : Reordered r r') :
    Fbas.fromRaw (Fbas.sortByKey r) = Fbas.fromRaw (Fbas.sortByKey r') := by
  obtain ⟨l, hp, hf⟩ := h
  rw [sortByKey_of_perm hd hp]
  exact fromRaw_forall₂ (sortByKey_forall₂ hf)

end FA
