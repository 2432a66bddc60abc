import Verif.Lemmas.BulkAnalyze
import Verif.Lemmas.InputOrder

/-!
# Merging nodes by groups when the IDs of nodes are different
-/

namespace FA
open Spec Analysis Tool Props Groupings

section
variable {σ : Equiv.Perm ℕ} {m m' : ℕ → ℕ} {n : ℕ}

/-- Corresponding merged IDs. -/
theorem exists_between (h : ∀ x y, x < n → y < n → (m x = m y ↔ m' (σ x) = m' (σ y))) :
    ∃ φ : ℕ → ℕ, (∀ x, x < n → φ (m x) = m' (σ x)) ∧
      ∀ x y, x < n → y < n → φ (m x) = φ (m y) → m x = m y := by
  classical
  refine ⟨fun y => if hy : ∃ x, x < n ∧ m x = y then m' (σ hy.choose) else 0, ?_⟩
  have key : ∀ x, x < n →
      (if hy : ∃ x', x' < n ∧ m x' = m x then m' (σ hy.choose) else 0) = m' (σ x) := by
    intro x hx
    have hy : ∃ x', x' < n ∧ m x' = m x := ⟨x, hx, rfl⟩
    rw [dif_pos hy]
    exact (h _ _ hy.choose_spec.1 hx).1 hy.choose_spec.2
  refine ⟨key, fun x y hx hy e => ?_⟩
  dsimp only at e
  rw [key x hx, key y hy] at e
  exact (h x y hx hy).2 e

variable {φ : ℕ → ℕ}

theorem image_between (h1 : ∀ x, x < n → φ (m x) = m' (σ x)) {S : NodeSet} (hS : ∀ x ∈ S, x < n) :
    (img σ S).image m' = (S.image m).image φ := by
  ext z
  simp only [Finset.mem_image]
  constructor
  · rintro ⟨y, hy, rfl⟩
    rw [mem_img] at hy
    exact ⟨_, ⟨_, hy, rfl⟩, by rw [h1 _ (hS _ hy), σ.apply_symm_apply]⟩
  · rintro ⟨_, ⟨x, hx, rfl⟩, rfl⟩
    exact ⟨σ x, apply_mem_img.2 hx, (h1 x (hS x hx)).symm⟩

/-- Sets of merged IDs. -/
def FromNodes (m : ℕ → ℕ) (n : ℕ) (G : NodeSet) : Prop := ∀ y ∈ G, ∃ x, x < n ∧ m x = y

theorem fromNodes_image {S : NodeSet} (hS : ∀ x ∈ S, x < n) : FromNodes m n (S.image m) := by
  intro y hy
  obtain ⟨x, hx, rfl⟩ := Finset.mem_image.1 hy
  exact ⟨x, hS x hx, rfl⟩

variable (h2 : ∀ x y, x < n → y < n → φ (m x) = φ (m y) → m x = m y)
include h2

theorem image_subset_between {G H : NodeSet} (hG : FromNodes m n G) (hH : FromNodes m n H) :
    G.image φ ⊆ H.image φ ↔ G ⊆ H := by
  refine ⟨fun h y hy => ?_, Finset.image_subset_image⟩
  obtain ⟨z, hz, e⟩ := Finset.mem_image.1 (h (Finset.mem_image_of_mem φ hy))
  obtain ⟨x, hx, rfl⟩ := hG y hy
  obtain ⟨x', hx', rfl⟩ := hH z hz
  rw [← h2 _ _ hx' hx e]
  exact hz

theorem image_inj_between {G H : NodeSet} (hG : FromNodes m n G) (hH : FromNodes m n H)
    (h : G.image φ = H.image φ) : G = H :=
  Finset.Subset.antisymm ((image_subset_between h2 hG hH).1 h.le)
    ((image_subset_between h2 hH hG).1 h.ge)

theorem card_between {G : NodeSet} (hG : FromNodes m n G) : (G.image φ).card = G.card := by
  refine Finset.card_image_of_injOn (fun y hy z hz e => ?_)
  obtain ⟨x, hx, rfl⟩ := hG y hy
  obtain ⟨x', hx', rfl⟩ := hG z hz
  exact h2 _ _ hx hx' e

/-- The minimal sets after merging correspond to each other. -/
theorem removeNonMinimal_between (h1 : ∀ x, x < n → φ (m x) = m' (σ x)) {L L' : List NodeSet}
    (hL : ∀ S ∈ L, ∀ x ∈ S, x < n) (hp : L'.Perm (L.map (img σ))) :
    (removeNonMinimalNodeSets (L'.map (Finset.image m'))).Perm
      ((removeNonMinimalNodeSets (L.map (Finset.image m))).map (Finset.image φ)) := by
  have hmem : ∀ T, T ∈ L'.map (Finset.image m') ↔ T ∈ (L.map (Finset.image m)).map (Finset.image φ) := by
    intro T
    rw [(hp.map (Finset.image m')).mem_iff, List.map_map, List.map_map]
    rw [List.map_congr_left (f := Finset.image m' ∘ img σ) (g := Finset.image φ ∘ Finset.image m)
      (fun S hS => image_between h1 (hL S hS))]
  have hfrom : ∀ G ∈ L.map (Finset.image m), FromNodes m n G := by
    intro G hG
    obtain ⟨S, hS, rfl⟩ := List.mem_map.1 hG
    exact fromNodes_image (hL S hS)
  have hmin : ∀ G ∈ removeNonMinimalNodeSets (L.map (Finset.image m)), G ∈ L.map (Finset.image m) :=
    fun G hG => (((removeNonMinimal_spec _).1 G).1 hG).prop
  rw [List.perm_ext_iff_of_nodup (removeNonMinimal_nodup _)
    (List.Nodup.map_on (fun G hG H hH e => image_inj_between h2 (hfrom G (hmin G hG))
      (hfrom H (hmin H hH)) e) (removeNonMinimal_nodup _))]
  intro T
  rw [(removeNonMinimal_spec _).1, List.mem_map]
  constructor
  · intro hT
    obtain ⟨G, hG, rfl⟩ := List.mem_map.1 ((hmem T).1 hT.prop)
    refine ⟨G, ((removeNonMinimal_spec _).1 G).2 ⟨hG, fun H hH hHG => ?_⟩, rfl⟩
    exact (image_subset_between h2 (hfrom G hG) (hfrom H hH)).1
      (hT.2 ((hmem _).2 (List.mem_map_of_mem hH)) (Finset.image_subset_image hHG))
  · rintro ⟨G, hG, rfl⟩
    have hG' := ((removeNonMinimal_spec _).1 G).1 hG
    refine ⟨(hmem _).2 (List.mem_map_of_mem hG'.prop), fun T hT hTG => ?_⟩
    obtain ⟨H, hH, rfl⟩ := List.mem_map.1 ((hmem T).1 hT)
    exact Finset.image_subset_image
      (hG'.2 hH ((image_subset_between h2 (hfrom H hH) (hfrom G hG'.prop)).1 hTG))

end

/-! ### Groups -/

/-- `gs'` are the groups `gs`, for other IDs: the nodes that are merged and the names that are shown
correspond to each other. -/
structure Moves (σ : Equiv.Perm ℕ) (f f' : Fbas) (gs gs' : List Grouping) : Prop where
  same : ∀ x y, x < f.nodes.length → y < f.nodes.length →
    (tailRep x gs x = tailRep y gs y ↔ tailRep (σ x) gs' (σ x) = tailRep (σ y) gs' (σ y))
  shown : ∀ x, x < f.nodes.length → ∀ nm,
    (ShownAs gs f (tailRep x gs x) nm ↔ ShownAs gs' f' (tailRep (σ x) gs' (σ x)) nm)
  disjoint : DisjointGroups gs → DisjointGroups gs'

/-- Groups with the same names and corresponding members. -/
def Corresponding (σ : Equiv.Perm ℕ) (gs gs' : List Grouping) : Prop :=
  List.Forall₂ (fun a b : Grouping => b.name = a.name ∧ b.validators.Perm (a.validators.map σ)) gs gs'

section
variable {σ : Equiv.Perm ℕ} {f f' : Fbas} {gs gs' : List Grouping}

theorem Corresponding.get (h : Corresponding σ gs gs') (i : ℕ) :
    (gs[i]? = none ∧ gs'[i]? = none) ∨ ∃ a b, gs[i]? = some a ∧ gs'[i]? = some b ∧ b.name = a.name ∧
      ∀ x, σ x ∈ b.validators ↔ x ∈ a.validators := by
  induction h generalizing i with
  | nil => exact .inl ⟨rfl, rfl⟩
  | @cons a b l l' hab _ ih =>
    cases i with
    | zero =>
      refine .inr ⟨a, b, rfl, rfl, hab.1, fun x => ?_⟩
      rw [hab.2.mem_iff, List.mem_map_of_injective σ.injective]
    | succ i => exact ih i

theorem Corresponding.mem (h : Corresponding σ gs gs') {a : Grouping} (ha : a ∈ gs) :
    ∃ b ∈ gs', b.name = a.name ∧ ∀ x, σ x ∈ b.validators ↔ x ∈ a.validators := by
  obtain ⟨i, hi⟩ := List.getElem?_of_mem ha
  rcases h.get i with ⟨h1, -⟩ | ⟨a', b, h1, h2, h3⟩
  · rw [hi] at h1; cases h1
  · rw [hi] at h1
    cases h1
    exact ⟨b, List.mem_of_getElem? h2, h3⟩

theorem Corresponding.mem' (h : Corresponding σ gs gs') {b : Grouping} (hb : b ∈ gs') :
    ∃ a ∈ gs, b.name = a.name ∧ ∀ x, σ x ∈ b.validators ↔ x ∈ a.validators := by
  obtain ⟨i, hi⟩ := List.getElem?_of_mem hb
  rcases h.get i with ⟨-, h1⟩ | ⟨a, b', h1, h2, h3⟩
  · rw [hi] at h1; cases h1
  · rw [hi] at h2
    cases h2
    exact ⟨a, List.mem_of_getElem? h1, h3⟩

theorem Corresponding.shownAs (h : Corresponding σ gs gs')
    (hn : ∀ x, (f'.nodes[σ x]?).map Node.publicKey = (f.nodes[x]?).map Node.publicKey) (x : ℕ)
    (nm : String) : ShownAs gs f x nm ↔ ShownAs gs' f' (σ x) nm := by
  unfold ShownAs
  rw [hn]
  refine or_congr ⟨?_, ?_⟩ (and_congr_left fun _ => ⟨fun ha b hb hx => ?_, fun hb a ha hx => ?_⟩)
  · rintro ⟨i, a, hi, hx, rfl, hlast⟩
    rcases h.get i with ⟨h1, -⟩ | ⟨a', b, h1, h2, h3, h4⟩
    · rw [hi] at h1; cases h1
    · rw [hi] at h1
      cases h1
      refine ⟨i, b, h2, (h4 x).2 hx, h3.symm, fun j b' hij hj hx' => ?_⟩
      rcases h.get j with ⟨-, h1⟩ | ⟨a', b'', e1, e2, -, e4⟩
      · rw [hj] at h1; cases h1
      · rw [hj] at e2
        cases e2
        exact hlast j a' hij e1 ((e4 x).1 hx')
  · rintro ⟨i, b, hi, hx, rfl, hlast⟩
    rcases h.get i with ⟨-, h1⟩ | ⟨a, b', h1, h2, h3, h4⟩
    · rw [hi] at h1; cases h1
    · rw [hi] at h2
      cases h2
      refine ⟨i, a, h1, (h4 x).1 hx, h3, fun j a' hij hj hx' => ?_⟩
      rcases h.get j with ⟨h1, -⟩ | ⟨a'', b'', e1, e2, -, e4⟩
      · rw [hj] at h1; cases h1
      · rw [hj] at e1
        cases e1
        exact hlast j b'' hij e2 ((e4 x).2 hx')
  · obtain ⟨a, ha', -, h4⟩ := h.mem' hb
    exact ha a ha' ((h4 x).1 hx)
  · obtain ⟨b, hb', -, h4⟩ := h.mem ha
    exact hb b hb' ((h4 x).2 hx)

theorem Corresponding.sameGroup (h : Corresponding σ gs gs') (x y : ℕ) :
    SameGroup gs x y ↔ SameGroup gs' (σ x) (σ y) := by
  unfold SameGroup
  rw [σ.injective.eq_iff]
  refine or_congr_right ⟨?_, ?_⟩
  · rintro ⟨a, ha, hx, hy⟩
    obtain ⟨b, hb, -, h4⟩ := h.mem ha
    exact ⟨b, hb, (h4 x).2 hx, (h4 y).2 hy⟩
  · rintro ⟨b, hb, hx, hy⟩
    obtain ⟨a, ha, -, h4⟩ := h.mem' hb
    exact ⟨a, ha, (h4 x).1 hx, (h4 y).1 hy⟩

/-- Nodes in the same group have the same name. -/
theorem shownAs_of_sameGroup (hd : DisjointGroups gs) {x y : ℕ} (h : SameGroup gs x y) (nm : String) :
    ShownAs gs f x nm ↔ ShownAs gs f y nm := by
  rcases h with rfl | ⟨o, ho, hx, hy⟩
  · rfl
  have key : ∀ a ∈ gs, (x ∈ a.validators ↔ y ∈ a.validators) := by
    intro a ha
    constructor
    · intro hxa
      rw [← hd o ho a ha x hx hxa]; exact hy
    · intro hya
      rw [← hd o ho a ha y hy hya]; exact hx
  unfold ShownAs
  refine or_congr ⟨?_, ?_⟩ ⟨fun h => absurd hx (h.1 o ho), fun h => absurd hy (h.1 o ho)⟩
  · rintro ⟨i, a, hi, hxa, hnm, hl⟩
    exact ⟨i, a, hi, (key a (List.mem_of_getElem? hi)).1 hxa, hnm, fun j a' hij hj hya =>
      hl j a' hij hj ((key a' (List.mem_of_getElem? hj)).2 hya)⟩
  · rintro ⟨i, a, hi, hxa, hnm, hl⟩
    exact ⟨i, a, hi, (key a (List.mem_of_getElem? hi)).2 hxa, hnm, fun j a' hij hj hya =>
      hl j a' hij hj ((key a' (List.mem_of_getElem? hj)).1 hya)⟩

theorem tailRep_sameGroup (hd : DisjointGroups gs) (x : ℕ) : SameGroup gs x (tailRep x gs x) :=
  (tailRep_eq_iff hd).1 (tailRep_idem hd x).symm

/-- Disjoint groups move if all members do. -/
theorem Corresponding.moves (h : Corresponding σ gs gs') (hd : DisjointGroups gs)
    (hd' : DisjointGroups gs')
    (hn : ∀ x, (f'.nodes[σ x]?).map Node.publicKey = (f.nodes[x]?).map Node.publicKey) :
    Moves σ f f' gs gs' where
  same x y _ _ := by
    rw [tailRep_eq_iff hd, tailRep_eq_iff hd']
    exact h.sameGroup x y
  shown x _ nm := by
    rw [← shownAs_of_sameGroup hd (tailRep_sameGroup hd x),
      ← shownAs_of_sameGroup hd' (tailRep_sameGroup hd' (σ x))]
    exact h.shownAs hn x nm
  disjoint _ := hd'

/-- Groups with IDs in the same order. -/
def moveGroup (σ : Equiv.Perm ℕ) (a : Grouping) : Grouping := ⟨a.name, a.validators.map σ⟩

theorem tailRep_moveGroup (x : ℕ) (gs : List Grouping) (d : ℕ) :
    tailRep (σ x) (gs.map (moveGroup σ)) (σ d) = σ (tailRep x gs d) := by
  induction gs generalizing d with
  | nil => rfl
  | cons a gs ih =>
    obtain ⟨nm, vs⟩ := a
    cases vs with
    | nil => exact ih d
    | cons v vs =>
      show tailRep (σ x) (gs.map (moveGroup σ)) (if σ x ∈ vs.map σ then σ v else σ d) =
        σ (tailRep x gs (if x ∈ vs then v else d))
      rw [← ih]
      congr 1
      by_cases hx : x ∈ vs
      · rw [if_pos hx, if_pos (List.mem_map_of_mem hx)]
      · rw [if_neg hx, if_neg (fun h => hx ((List.mem_map_of_injective σ.injective).1 h))]

/-- Groups move if the members are listed in the same order. -/
theorem moves_map (hn : ∀ x, (f'.nodes[σ x]?).map Node.publicKey = (f.nodes[x]?).map Node.publicKey) :
    Moves σ f f' gs (gs.map (moveGroup σ)) where
  same x y _ _ := by
    rw [tailRep_moveGroup, tailRep_moveGroup, σ.injective.eq_iff]
  shown x _ nm := by
    rw [tailRep_moveGroup]
    refine Corresponding.shownAs ?_ hn _ nm
    unfold Corresponding
    rw [List.forall₂_map_right_iff, List.forall₂_same]
    exact fun a _ => ⟨rfl, .rfl⟩
  disjoint hd a ha b hb x hxa hxb := by
    obtain ⟨c, hc, rfl⟩ := List.mem_map.1 ha
    obtain ⟨d, hd', rfl⟩ := List.mem_map.1 hb
    obtain ⟨y, hy, rfl⟩ := List.mem_map.1 hxa
    exact congrArg (List.map σ) (hd c hc d hd' y hy ((List.mem_map_of_injective σ.injective).1 hxb))

/-! ### Merged sets -/

/-- The maps between merged IDs. -/
structure Between (σ : Equiv.Perm ℕ) (f f' : Fbas) (gs gs' : List Grouping) (φ : ℕ → ℕ) : Prop where
  apply : ∀ x, x < f.nodes.length → φ (tailRep x gs x) = tailRep (σ x) gs' (σ x)
  inj : ∀ x y, x < f.nodes.length → y < f.nodes.length →
    φ (tailRep x gs x) = φ (tailRep y gs y) → tailRep x gs x = tailRep y gs y
  shown : ∀ x, x < f.nodes.length → ∀ nm,
    (ShownAs gs f (tailRep x gs x) nm ↔ ShownAs gs' f' (φ (tailRep x gs x)) nm)

theorem Moves.between (h : Moves σ f f' gs gs') : ∃ φ, Between σ f f' gs gs' φ := by
  obtain ⟨φ, h1, h2⟩ := exists_between (m := fun x => tailRep x gs x) (m' := fun x => tailRep x gs' x)
    (σ := σ) h.same
  exact ⟨φ, h1, h2, fun x hx nm => by rw [h1 x hx]; exact h.shown x hx nm⟩

/-- Corresponding lists of sets after merging. -/
structure MovedSets (f : Fbas) (gs : List Grouping) (φ : ℕ → ℕ) (M M' : List NodeSet) : Prop where
  perm : M'.Perm (M.map (Finset.image φ))
  from' : ∀ S ∈ M, FromNodes (fun x => tailRep x gs x) f.nodes.length S

variable {g g' : Option Groupings} {φ : ℕ → ℕ}

theorem Between.sets (hb : Between σ f f' gs gs' φ) (hlen : ∀ x, σ x < f'.nodes.length ↔ x < f.nodes.length)
    (hg : MadeFrom g gs f) (hg' : MadeFrom g' gs' f') (hiff : g = none ↔ g' = none)
    {L L' M M' : List NodeSet} (hL : ∀ S ∈ L, ∀ x ∈ S, x < f.nodes.length)
    (hp : L'.Perm (L.map (img σ))) (hM : MergedSets g L M) (hM' : MergedSets g' L' M') :
    MovedSets f gs φ M M' := by
  have hL' : ∀ S ∈ L', ∀ x ∈ S, x < f'.nodes.length := by
    intro S hS x hx
    obtain ⟨T, hT, rfl⟩ := List.mem_map.1 (hp.mem_iff.1 hS)
    rw [mem_img] at hx
    have := (hlen _).2 (hL T hT _ hx)
    rwa [σ.apply_symm_apply] at this
  rcases hg with ⟨rfl, rfl⟩ | ⟨g, rfl, hg⟩
  · obtain rfl := hiff.1 rfl
    rcases hg' with ⟨-, rfl⟩ | ⟨g', h, -⟩
    · obtain rfl : M = L := hM
      obtain rfl : M' = L' := hM'
      refine ⟨?_, fun S hS x hx => ⟨x, hL S hS x hx, rfl⟩⟩
      rw [List.map_congr_left (f := Finset.image φ) (g := img σ) (fun S hS => ?_)]
      · exact hp
      · have := image_between (m := fun x => tailRep x [] x) (m' := fun x => tailRep x [] x) hb.apply
          (hL S hS)
        simpa [tailRep, Finset.image_id'] using this.symm
    · cases h
  · rcases hg' with ⟨rfl, -⟩ | ⟨g', rfl, hg'⟩
    · cases hiff.2 rfl
    · have e : ∀ {g : Groupings} {gs f} {L M : List NodeSet}, Groupings.new gs f = .ok g →
          (∀ S ∈ L, ∀ x ∈ S, x < f.nodes.length) → MergedSets (some g) L M →
          M = removeNonMinimalNodeSets (L.map (Finset.image (fun x => tailRep x gs x))) := by
        intro g gs f L M hg hL hM
        have hM : g.mergeMinimalNodeSets L = .ok M := hM
        have := mergeNodeSets_ok (g := g) (l := L) (m := fun x => tailRep x gs x)
          (fun S hS x hx => merge_spec hg x (hL S hS x hx))
        unfold mergeMinimalNodeSets at hM
        rw [this] at hM
        exact (Except.ok.inj hM).symm
      rw [e hg hL hM, e hg' hL' hM']
      refine ⟨removeNonMinimal_between hb.inj hb.apply hL hp, fun S hS => ?_⟩
      obtain ⟨T, hT, rfl⟩ := List.mem_map.1 (((removeNonMinimal_spec _).1 S).1 hS).prop
      exact fromNodes_image (hL T hT)

theorem Between.set (hb : Between σ f f' gs gs' φ) (hlen : ∀ x, σ x < f'.nodes.length ↔ x < f.nodes.length)
    (hg : MadeFrom g gs f) (hg' : MadeFrom g' gs' f') (hiff : g = none ↔ g' = none)
    {T M M' : NodeSet} (hT : ∀ x ∈ T, x < f.nodes.length)
    (hM : MergedSet g T M) (hM' : MergedSet g' (img σ T) M') :
    M' = M.image φ ∧ FromNodes (fun x => tailRep x gs x) f.nodes.length M := by
  have hT' : ∀ x ∈ img σ T, x < f'.nodes.length := by
    intro x hx
    rw [mem_img] at hx
    have := (hlen _).2 (hT _ hx)
    rwa [σ.apply_symm_apply] at this
  rcases hg with ⟨rfl, rfl⟩ | ⟨g, rfl, hg⟩
  · obtain rfl := hiff.1 rfl
    rcases hg' with ⟨-, rfl⟩ | ⟨g', h, -⟩
    · obtain rfl : M = T := hM
      obtain rfl : M' = img σ M := hM'
      refine ⟨?_, fun x hx => ⟨x, hT x hx, rfl⟩⟩
      have := image_between (m := fun x => tailRep x [] x) (m' := fun x => tailRep x [] x) hb.apply hT
      simpa [tailRep, Finset.image_id'] using this
    · cases h
  · rcases hg' with ⟨rfl, -⟩ | ⟨g', rfl, hg'⟩
    · cases hiff.2 rfl
    · have e : ∀ {g : Groupings} {gs f} {L M : NodeSet}, Groupings.new gs f = .ok g →
          (∀ x ∈ L, x < f.nodes.length) → MergedSet (some g) L M →
          M = L.image (fun x => tailRep x gs x) := by
        intro g gs f L M hg hL hM
        have hM : g.mergeNodeSet L = .ok M := hM
        rw [mergeNodeSet_ok (g := g) (m := fun x => tailRep x gs x)
          (fun x hx => merge_spec hg x (hL x hx))] at hM
        exact (Except.ok.inj hM).symm
      rw [e hg hT hM, e hg' hT' hM']
      exact ⟨image_between hb.apply hT, fromNodes_image hT⟩

theorem MovedSets.cards (hb : Between σ f f' gs gs' φ) {M M' : List NodeSet}
    (h : MovedSets f gs φ M M') : (M'.map Finset.card).Perm (M.map Finset.card) := by
  refine (h.perm.map Finset.card).trans ?_
  rw [List.map_map, List.map_congr_left (f := Finset.card ∘ Finset.image φ) (g := Finset.card)
    (fun S hS => card_between hb.inj (h.from' S hS))]

theorem MovedSets.union (hb : Between σ f f' gs gs' φ) {M M' : List NodeSet}
    (h : MovedSets f gs φ M M') :
    (M'.foldr (· ∪ ·) ∅).card = (M.foldr (· ∪ ·) ∅).card := by
  have hmem : ∀ (l : List NodeSet) x, x ∈ l.foldr (· ∪ ·) ∅ ↔ ∃ S ∈ l, x ∈ S := by
    intro l x
    induction l with
    | nil => simp
    | cons a l ih => simp [ih]
  have : M'.foldr (· ∪ ·) ∅ = (M.foldr (· ∪ ·) ∅).image φ := by
    ext y
    rw [hmem, Finset.mem_image]
    constructor
    · rintro ⟨S, hS, hy⟩
      obtain ⟨T, hT, rfl⟩ := List.mem_map.1 (h.perm.mem_iff.1 hS)
      obtain ⟨x, hx, rfl⟩ := Finset.mem_image.1 hy
      exact ⟨x, (hmem _ _).2 ⟨T, hT, hx⟩, rfl⟩
    · rintro ⟨x, hx, rfl⟩
      obtain ⟨T, hT, hx⟩ := (hmem _ _).1 hx
      exact ⟨_, h.perm.mem_iff.2 (List.mem_map_of_mem hT), Finset.mem_image_of_mem φ hx⟩
  rw [this]
  refine card_between hb.inj (fun x hx => ?_)
  obtain ⟨T, hT, hx⟩ := (hmem _ _).1 hx
  exact h.from' T hT x hx

end

/-! ### Sizes -/

theorem sizes_congr {L L' : List NodeSet} {a b a' b' : ℕ} {c c' : ℚ}
    (hp : (L'.map Finset.card).Perm (L.map Finset.card)) (h : Sizes L a b c) (h' : Sizes L' a' b' c') :
    a' = a ∧ b' = b ∧ c' = c := by
  have hlen : L'.length = L.length := by simpa using hp.length_eq
  by_cases he : L = []
  · have he' : L' = [] := List.length_eq_zero_iff.1 (by rw [hlen, he]; rfl)
    obtain ⟨h1, h2, h3⟩ := h.empty he
    obtain ⟨h1', h2', h3'⟩ := h'.empty he'
    exact ⟨h1'.trans h1.symm, h2'.trans h2.symm, h3'.trans h3.symm⟩
  · have he' : L' ≠ [] := fun e => he (List.length_eq_zero_iff.1 (by rw [← hlen, e]; rfl))
    obtain ⟨⟨S, hS, rfl⟩, T, hT, rfl⟩ := h.attained he
    obtain ⟨⟨S', hS', rfl⟩, T', hT', rfl⟩ := h'.attained he'
    have mv : ∀ U ∈ L, ∃ U' ∈ L', U'.card = U.card := fun U hU =>
      List.mem_map.1 (hp.mem_iff.2 (List.mem_map_of_mem hU))
    have mv' : ∀ U ∈ L', ∃ U' ∈ L, U'.card = U.card := fun U hU =>
      List.mem_map.1 (hp.mem_iff.1 (List.mem_map_of_mem hU))
    obtain ⟨S₁, hS₁, e1⟩ := mv S hS
    obtain ⟨T₁, hT₁, e2⟩ := mv T hT
    obtain ⟨S₂, hS₂, e3⟩ := mv' S' hS'
    obtain ⟨T₂, hT₂, e4⟩ := mv' T' hT'
    have b1 := (h'.bounds S₁ hS₁).1
    have b2 := (h'.bounds T₁ hT₁).2
    have b3 := (h.bounds S₂ hS₂).1
    have b4 := (h.bounds T₂ hT₂).2
    refine ⟨by omega, by omega, ?_⟩
    have m1 := h.mean
    have m2 := h'.mean
    rw [hp.sum_eq, ← m1, hlen] at m2
    exact mul_right_cancel₀ (by
      rw [Ne, Nat.cast_eq_zero, List.length_eq_zero_iff]; exact he) m2

theorem showsSizes_congr {L L' : List NodeSet} {c c' : Option ℕ × Option ℕ × Option ℚ}
    (hp : (L'.map Finset.card).Perm (L.map Finset.card)) (h : ShowsSizes L c) (h' : ShowsSizes L' c') :
    c' = c := by
  obtain ⟨a, b, m, rfl, h⟩ := h
  obtain ⟨a', b', m', rfl, h'⟩ := h'
  obtain ⟨rfl, rfl, rfl⟩ := sizes_congr hp h h'
  rfl

theorem summary_congr {L L' : List NodeSet} {j j' : Json}
    (hp : (L'.map Finset.card).Perm (L.map Finset.card))
    (hu : (L'.foldr (· ∪ ·) ∅).card = (L.foldr (· ∪ ·) ∅).card) (h : Summary L j) (h' : Summary L' j') :
    j' = j := by
  obtain ⟨a, b, m, l, rfl, h1, h2, h3, h4, h5, h6⟩ := h
  obtain ⟨a', b', m', l', rfl, h1', h2', h3', h4', h5', h6'⟩ := h'
  obtain ⟨rfl, rfl, rfl⟩ := sizes_congr hp ⟨h1, h2, h3, h4⟩ ⟨h1', h2', h3', h4'⟩
  have hlen : L'.length = L.length := by simpa using hp.length_eq
  have hl : l' = l := by
    refine List.ext_getElem? (fun k => ?_)
    by_cases hk : k < b' + 1
    · rw [h6 k hk, h6' k hk]
      have key : ∀ L : List NodeSet, (L.filter (fun S => S.card = k)).length = (L.map Finset.card).count k := by
        intro L
        rw [List.count_eq_length_filter, List.filter_map, List.length_map]
        congr 2
      rw [key, key, hp.count_eq]
    · rw [List.getElem?_eq_none (by omega), List.getElem?_eq_none (by omega)]
  rw [hu, hlen, hl]

end FA
