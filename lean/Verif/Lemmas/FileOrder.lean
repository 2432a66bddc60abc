import Verif.Lemmas.MergeOrder
import Verif.Props.Tool
import Verif.SpecFileOrder

/-!
# Loading groups for inputs that list the nodes in another order
-/

namespace FA
open Spec Analysis Tool Props Groupings

section
variable {r r' : RawFbas}

theorem Spec.SameNetwork.reordered (h : SameNetwork r r') : Reordered r r' := by
  obtain ⟨l, h1, h2⟩ := h
  exact ⟨l, h1, h2.imp fun a b h => ⟨h.1, h.2.1⟩⟩

theorem Spec.SameNetwork.distinct (h : SameNetwork r r') (hd : DistinctKeys r) : DistinctKeys r' := by
  obtain ⟨l, h1, h2⟩ := h
  have hd' : DistinctKeys l := distinct_perm h1 hd
  have e : l.map RawNode.publicKey = r'.map RawNode.publicKey := by
    clear h1 hd hd'
    induction h2 with
    | nil => rfl
    | cons h _ ih => rw [List.map_cons, List.map_cons, h.1, ih]
  unfold DistinctKeys at hd' ⊢
  rwa [← e]

/-- A node keeps its ISP and country. -/
theorem Spec.SameNetwork.node (h : SameNetwork r r') {a : RawNode} (ha : a ∈ r) :
    ∃ b ∈ r', a.publicKey = b.publicKey ∧ a.isp = b.isp ∧ a.geoData.join = b.geoData.join := by
  obtain ⟨l, h1, h2⟩ := h
  have ha := h1.mem_iff.1 ha
  clear h1
  induction h2 with
  | nil => cases ha
  | cons h _ ih =>
    rcases List.mem_cons.1 ha with rfl | ha
    · exact ⟨_, List.mem_cons_self, h.1, h.2.2⟩
    · obtain ⟨b, hb, h'⟩ := ih ha
      exact ⟨b, List.mem_cons_of_mem _ hb, h'⟩

theorem Spec.SameNetwork.node' (h : SameNetwork r r') {b : RawNode} (hb : b ∈ r') :
    ∃ a ∈ r, a.publicKey = b.publicKey ∧ a.isp = b.isp ∧ a.geoData.join = b.geoData.join := by
  obtain ⟨l, h1, h2⟩ := h
  have : ∃ a ∈ l, a.publicKey = b.publicKey ∧ a.isp = b.isp ∧ a.geoData.join = b.geoData.join := by
    clear h1
    induction h2 with
    | nil => cases hb
    | @cons a _ _ _ h _ ih =>
      rcases List.mem_cons.1 hb with rfl | hb
      · exact ⟨a, List.mem_cons_self, h.1, h.2.2⟩
      · obtain ⟨b, hb, h'⟩ := ih hb
        exact ⟨b, List.mem_cons_of_mem _ hb, h'⟩
  obtain ⟨a, ha, h3⟩ := this
  exact ⟨a, h1.mem_iff.2 ha, h3⟩

/-- The parts of a node that decide about groups. -/
def IsAnnotation (key : RawNode → Option String) : Prop :=
  key = RawNode.isp ∨ key = RawNode.country

theorem IsAnnotation.eq {key : RawNode → Option String} (hk : IsAnnotation key) {a b : RawNode}
    (h1 : a.isp = b.isp) (h2 : a.geoData.join = b.geoData.join) : key a = key b := by
  have e : ∀ n : RawNode, n.country = n.geoData.join := fun n => by
    unfold RawNode.country
    cases n.geoData <;> rfl
  rcases hk with rfl | rfl
  · exact h1
  · rw [e, e]; exact h2

theorem membersOf_perm (h : SameNetwork r r') {key : RawNode → Option String} (hk : IsAnnotation key)
    (nm : String) : (membersOf key r' nm).Perm (membersOf key r nm) := by
  obtain ⟨l, h1, h2⟩ := h
  have gen : ∀ p : RawNode → Bool, (∀ a b, key a = key b → p a = p b) →
      (r'.filter p).map RawNode.publicKey = (l.filter p).map RawNode.publicKey := by
    intro p hp
    clear h1
    induction h2 with
    | nil => rfl
    | @cons a b _ _ h _ ih =>
      have hab : p a = p b := hp a b (hk.eq h.2.2.1 h.2.2.2)
      simp only [List.filter_cons]
      rw [hab]
      split
      · rw [List.map_cons, List.map_cons, ih, h.1]
      · exact ih
  have e : membersOf key r' nm = membersOf key l nm := gen _ (fun a b h => by simp only [h])
  rw [e]
  unfold membersOf
  exact ((h1.filter _).map _).symm

/-- Two FBASs in which nodes with the same public key correspond to each other. -/
structure Moved' (σ : Equiv.Perm ℕ) (r r' : RawFbas) : Prop where
  renamed : Renamed σ (Fbas.fromRaw r) (Fbas.fromRaw r')
  key : ∀ x, ((Fbas.fromRaw r').nodes[σ x]?).map Node.publicKey =
    ((Fbas.fromRaw r).nodes[x]?).map Node.publicKey
  ids : ∀ p, (Fbas.fromRaw r').pkToId.get? p = ((Fbas.fromRaw r).pkToId.get? p).map σ

theorem exists_moved (hd : DistinctKeys r) (h : SameNetwork r r') : ∃ σ, Moved' σ r r' := by
  obtain ⟨σ, h1, h2⟩ := exists_renamed hd h.reordered
  have hd' := h.distinct hd
  have key : ∀ x, ((Fbas.fromRaw r').nodes[σ x]?).map Node.publicKey =
      ((Fbas.fromRaw r).nodes[x]?).map Node.publicKey := by
    intro x
    have hx := h1.lt x
    have hn := h2 x
    unfold nameOf at hn
    by_cases h : x < (Fbas.fromRaw r).nodes.length
    · rw [List.getElem?_eq_getElem h, List.getElem?_eq_getElem (hx.2 h)] at hn ⊢
      exact congrArg some hn
    · rw [List.getElem?_eq_none (by omega), List.getElem?_eq_none (by
        have := mt hx.1 h; omega)]
  refine ⟨σ, h1, key, fun p => ?_⟩
  ext j
  have c1 := registryOk_fromRaw hd
  have c2 := registryOk_fromRaw hd'
  have e1 : (Fbas.fromRaw r').pkToId.get? p = some j ↔
      ((Fbas.fromRaw r').nodes[j]?).map Node.publicKey = some p := by
    rw [Option.map_eq_some_iff]; exact c2 p j
  have e2 : ∀ i, (Fbas.fromRaw r).pkToId.get? p = some i ↔
      ((Fbas.fromRaw r).nodes[i]?).map Node.publicKey = some p := by
    intro i
    rw [Option.map_eq_some_iff]; exact c1 p i
  refine e1.trans (Iff.trans ?_ Option.map_eq_some_iff.symm)
  constructor
  · intro h
    exact ⟨σ.symm j, (e2 _).2 (by rw [← key, σ.apply_symm_apply]; exact h), σ.apply_symm_apply j⟩
  · rintro ⟨i, h, rfl⟩
    rw [key]
    exact (e2 i).1 h

theorem grouping_fromRaw_perm {σ : Equiv.Perm ℕ} (h : Moved' σ r r') {a b : RawGrouping}
    (hv : b.validators.Perm a.validators) :
    (Grouping.fromRaw (Fbas.fromRaw r').pkToId b).validators.Perm
      ((Grouping.fromRaw (Fbas.fromRaw r).pkToId a).validators.map σ) := by
  show (b.validators.filterMap (Fbas.fromRaw r').pkToId.get?).Perm
    ((a.validators.filterMap (Fbas.fromRaw r).pkToId.get?).map σ)
  rw [List.map_filterMap]
  refine (hv.filterMap _).trans ?_
  rw [List.filterMap_congr (fun p _ => h.ids p)]

theorem grouping_fromRaw_move {σ : Equiv.Perm ℕ} (h : Moved' σ r r') (raws : List RawGrouping) :
    raws.map (Grouping.fromRaw (Fbas.fromRaw r').pkToId) =
      (raws.map (Grouping.fromRaw (Fbas.fromRaw r).pkToId)).map (moveGroup σ) := by
  rw [List.map_map]
  refine List.map_congr_left (fun a _ => ?_)
  show (⟨a.name, a.validators.filterMap (Fbas.fromRaw r').pkToId.get?⟩ : Grouping) =
    ⟨a.name, (a.validators.filterMap (Fbas.fromRaw r).pkToId.get?).map σ⟩
  rw [List.map_filterMap, List.filterMap_congr (fun p _ => h.ids p)]

/-- Lists of groups with corresponding members. -/
theorem raws_forall₂ {l l' : List RawGrouping}
    (hs : (l.map RawGrouping.name).Pairwise (· < ·)) (hs' : (l'.map RawGrouping.name).Pairwise (· < ·))
    {M M' : String → List PublicKey} (hp : ∀ nm, (M' nm).Perm (M nm))
    (hm : ∀ nm vs, ⟨nm, vs⟩ ∈ l ↔ vs = M nm ∧ vs ≠ [])
    (hm' : ∀ nm vs, ⟨nm, vs⟩ ∈ l' ↔ vs = M' nm ∧ vs ≠ []) :
    List.Forall₂ (fun a b : RawGrouping => b.name = a.name ∧ b.validators.Perm a.validators) l l' := by
  have hnames : l.map RawGrouping.name = l'.map RawGrouping.name := by
    refine List.Perm.eq_of_pairwise' (r := (· < ·)) hs hs' ?_
    rw [List.perm_ext_iff_of_nodup (hs.imp (fun h => ne_of_lt h)) (hs'.imp (fun h => ne_of_lt h))]
    intro nm
    rw [List.mem_map, List.mem_map]
    constructor
    · rintro ⟨⟨nm', vs⟩, h, rfl⟩
      obtain ⟨rfl, hne⟩ := (hm _ _).1 h
      exact ⟨⟨nm', M' nm'⟩, (hm' _ _).2 ⟨rfl, fun e => hne (List.nil_perm.1 (e ▸ hp nm'))⟩, rfl⟩
    · rintro ⟨⟨nm', vs⟩, h, rfl⟩
      obtain ⟨rfl, hne⟩ := (hm' _ _).1 h
      exact ⟨⟨nm', M nm'⟩, (hm _ _).2 ⟨rfl, fun e => hne (List.perm_nil.1 (e ▸ hp nm'))⟩, rfl⟩
  have hv : ∀ a ∈ l, a.validators = M a.name := fun a ha => ((hm a.name a.validators).1 ha).1
  have hv' : ∀ a ∈ l', a.validators = M' a.name := fun a ha => ((hm' a.name a.validators).1 ha).1
  clear hm hm' hs hs'
  induction l generalizing l' with
  | nil => cases l' with
    | nil => exact .nil
    | cons b l' => cases hnames
  | cons a l ih => cases l' with
    | nil => cases hnames
    | cons b l' =>
      obtain ⟨e1, e2⟩ := List.cons.inj hnames
      refine .cons ⟨e1.symm, ?_⟩ (ih e2 (fun a ha => hv a (List.mem_cons_of_mem _ ha))
        (fun a ha => hv' a (List.mem_cons_of_mem _ ha)))
      rw [hv a List.mem_cons_self, hv' b List.mem_cons_self, e1]
      exact hp _

theorem loadGroupings_raws {order : List String → List String} {opts : Options}
    (hr : DescribesFbas opts.nodes r) {g : Groupings}
    (hg : loadGroupings order opts (Fbas.fromRaw r) = .ok (some g)) :
    ∃ raws, Groupings.fromRaw raws (Fbas.fromRaw r) = .ok g ∧
      ((∃ j, ByOrg opts j ∧ DescribesGroupings j raws) ∨
        (ByIsp opts ∧ groupsFromRawNodes order RawNode.isp r = .ok raws) ∨
        (ByCountry opts ∧ groupsFromRawNodes order RawNode.country r = .ok raws)) := by
  have hraw := fbas_fromJson_iff.2 hr
  have some_ok : ∀ (x : Except Panic Groupings) g, someE x = .ok (some g) ↔ x = .ok g := by
    intro x g
    cases x with
    | error e => simp [someE]
    | ok g' => simp [someE]
  have hg₀ := hg
  unfold loadGroupings Options.groupingsTodos at hg
  by_cases hc : opts.ctryMerge = true
  · by_cases hp : opts.nodesPath = true
    · simp only [hc, hp, ↓reduceIte, some_ok] at hg
      unfold Groupings.countriesFromJson Groupings.countriesFromRaw at hg
      rw [hraw] at hg
      dsimp only at hg
      split at hg
      · cases hg
      next gs hgs => exact ⟨gs, hg, .inr (.inr ⟨⟨hc, hp⟩, hgs⟩)⟩
    · simp [hc, hp] at hg
  · have hc := Bool.eq_false_iff.2 hc
    by_cases hi : opts.ispMerge = true
    · by_cases hp : opts.nodesPath = true
      · simp only [hc, hi, hp, ↓reduceIte, Bool.false_eq_true, some_ok] at hg
        unfold Groupings.ispsFromJson Groupings.ispsFromRaw at hg
        rw [hraw] at hg
        dsimp only at hg
        split at hg
        · cases hg
        next gs hgs => exact ⟨gs, hg, .inr (.inl ⟨⟨hc, hi, hp⟩, hgs⟩)⟩
      · simp [hc, hi, hp] at hg
    · have hi := Bool.eq_false_iff.2 hi
      cases ho : opts.organizations with
      | none => simp [hc, hi, ho] at hg
      | some j =>
        simp only [hc, hi, ho, ↓reduceIte, Bool.false_eq_true, Option.isSome_some, some_ok] at hg
        obtain ⟨c1, c2⟩ := C62_organizations j (Fbas.fromRaw r)
        by_cases hj : ∃ raws, DescribesGroupings j raws
        · obtain ⟨raws, hraws⟩ := hj
          rw [c1 raws hraws] at hg
          exact ⟨raws, hg, .inl ⟨j, ⟨hc, hi, ho⟩, hraws⟩⟩
        · rw [c2 (fun raws h => hj ⟨raws, h⟩)] at hg
          cases hg

theorem madeFrom_raws {f : Fbas} {g : Groupings} {gs : List Grouping} {raws : List RawGrouping}
    (hm : MadeFrom (some g) gs f) (h : Groupings.fromRaw raws f = .ok g) :
    gs = raws.map (Grouping.fromRaw f.pkToId) :=
  madeFrom_unique hm (.inr ⟨g, rfl, h⟩)

/-- The groups that are loaded correspond to each other. -/
theorem moves_of_load {σ : Equiv.Perm ℕ} (hd : DistinctKeys r) (h : SameNetwork r r')
    (hσ : Moved' σ r r') {order order' : List String → List String} (ho : ∀ l, (order l).Perm l)
    (ho' : ∀ l, (order' l).Perm l) {opts opts' : Options} (hr : DescribesFbas opts.nodes r)
    (hr' : DescribesFbas opts'.nodes r') (h1 : ByCountry opts ↔ ByCountry opts')
    (h2 : ByIsp opts ↔ ByIsp opts') (h3 : ∀ j, ByOrg opts j ↔ ByOrg opts' j) {g g' : Option Groupings}
    {gs gs' : List Grouping} (hg : loadGroupings order opts (Fbas.fromRaw r) = .ok g)
    (hg' : loadGroupings order' opts' (Fbas.fromRaw r') = .ok g') (hm : MadeFrom g gs (Fbas.fromRaw r))
    (hm' : MadeFrom g' gs' (Fbas.fromRaw r')) :
    (g = none ↔ g' = none) ∧ Moves σ (Fbas.fromRaw r) (Fbas.fromRaw r') gs gs' := by
  have hiff : g = none ↔ g' = none := by
    obtain ⟨-, -, -, a⟩ := (loadGroupings_spec order opts r hr).2 g hg
    obtain ⟨-, -, -, b⟩ := (loadGroupings_spec order' opts' r' hr').2 g' hg'
    simp only [h1, h2, h3] at a
    exact not_iff_not.1 (a.trans b.symm)
  refine ⟨hiff, ?_⟩
  cases g with
  | none =>
    obtain rfl := hiff.1 rfl
    rcases hm with ⟨-, rfl⟩ | ⟨_, h, -⟩
    · rcases hm' with ⟨-, rfl⟩ | ⟨_, h, -⟩
      · exact moves_map (gs := []) hσ.key
      · cases h
    · cases h
  | some g =>
    cases g' with
    | none => cases hiff.2 rfl
    | some g' =>
      obtain ⟨raws, e1, e2⟩ := loadGroupings_raws hr hg
      obtain ⟨raws', e1', e2'⟩ := loadGroupings_raws hr' hg'
      obtain rfl := madeFrom_raws hm e1
      obtain rfl := madeFrom_raws hm' e1'
      have hann : ∀ key, IsAnnotation key → groupsFromRawNodes order key r = .ok raws →
          groupsFromRawNodes order' key r' = .ok raws' →
          Moves σ (Fbas.fromRaw r) (Fbas.fromRaw r') (raws.map (Grouping.fromRaw (Fbas.fromRaw r).pkToId))
            (raws'.map (Grouping.fromRaw (Fbas.fromRaw r').pkToId)) := by
        intro key hk a1 a2
        obtain ⟨s1, s2⟩ := groups_spec order ho key r raws a1
        obtain ⟨s1', s2'⟩ := groups_spec order' ho' key r' raws' a2
        have hf := raws_forall₂ s1 s1' (membersOf_perm h hk) s2 s2'
        obtain ⟨g₁, b1, b2, -⟩ := partition_spec order ho key r hd raws a1
        obtain ⟨g₂, b1', b2', -⟩ := partition_spec order' ho' key r' (h.distinct hd) raws' a2
        obtain ⟨g₃, c1, c2, -⟩ := fromRaw_groupings r raws
        obtain ⟨g₄, c1', c2', -⟩ := fromRaw_groupings r' raws'
        rw [b1] at c1
        rw [b1'] at c1'
        cases c1
        cases c1'
        rw [madeFrom_raws (.inr ⟨_, rfl, c2⟩) b1] at b2
        rw [madeFrom_raws (.inr ⟨_, rfl, c2'⟩) b1'] at b2'
        refine Corresponding.moves ?_ b2 b2' hσ.key
        unfold Corresponding
        rw [List.forall₂_map_left_iff, List.forall₂_map_right_iff]
        exact hf.imp fun a b hab => ⟨hab.1, grouping_fromRaw_perm hσ hab.2⟩
      have x1 : ∀ {o : Options} {j}, ByOrg o j → ¬ ByIsp o := fun a b => by
        unfold ByOrg at a; unfold ByIsp at b; simp [a.2.1] at b
      have x2 : ∀ {o : Options} {j}, ByOrg o j → ¬ ByCountry o := fun a b => by
        unfold ByOrg at a; unfold ByCountry at b; simp [a.1] at b
      have x3 : ∀ {o : Options}, ByIsp o → ¬ ByCountry o := fun a b => by
        unfold ByIsp at a; unfold ByCountry at b; simp [a.1] at b
      rcases e2 with ⟨j, o1, o2⟩ | ⟨o1, o2⟩ | ⟨o1, o2⟩
      · have o1' := (h3 j).1 o1
        rcases e2' with ⟨j', p1, p2⟩ | ⟨p1, p2⟩ | ⟨p1, p2⟩
        · obtain rfl : j = j' := Option.some.inj (o1'.2.2.symm.trans p1.2.2)
          obtain rfl : raws = raws' := Option.some.inj
            ((groupings_fromJson_iff.2 o2).symm.trans (groupings_fromJson_iff.2 p2))
          rw [grouping_fromRaw_move hσ raws]
          exact moves_map hσ.key
        · exact absurd p1 (x1 o1')
        · exact absurd p1 (x2 o1')
      · have o1' := h2.1 o1
        rcases e2' with ⟨j', p1, p2⟩ | ⟨p1, p2⟩ | ⟨p1, p2⟩
        · exact absurd o1' (x1 p1)
        · exact hann _ (.inl rfl) o2 p2
        · exact absurd p1 (x3 o1')
      · have o1' := h1.1 o1
        rcases e2' with ⟨j', p1, p2⟩ | ⟨p1, p2⟩ | ⟨p1, p2⟩
        · exact absurd o1' (x2 p1)
        · exact absurd o1' (x3 p1)
        · exact hann _ (.inr rfl) o2 p2

end
end FA
