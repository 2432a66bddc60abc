import Verif.Lemmas.IoGroupings
import Verif.Props.Groupings

/-!
# C53, C54: ISP and country groupings
-/

namespace FA.Props
open FA Spec

/-! ## C53 -/

/-- C53: normalising a name succeeds exactly if the name, without commas, is not empty and ends with
an ASCII character; the result is then the name without commas and without a trailing full stop. -/
theorem C53_name (name : String) :
    ((∃ s, removeSpecialChars name = .ok s) ↔ AsciiEnd name) ∧
      ∀ s, removeSpecialChars name = .ok s → s.toList = plainName name := by
  refine ⟨⟨fun ⟨s, hs⟩ => (removeSpecialChars_ok.1 hs).1, fun h => ?_⟩,
    fun s hs => (removeSpecialChars_ok.1 hs).2⟩
  exact ⟨_, removeSpecialChars_ok.2 ⟨h, String.toList_ofList⟩⟩

/-- C53 (partial): building ISP or country groupings (and loading them for any FBAS) succeeds exactly
if all names end with an ASCII character and do not only consist of commas. Missing: other names;
for these it panics, see `C53_counterexample`. -/
theorem C53_groupings_partial (order : List String → List String) (r : RawFbas) :
    ((∃ gs, ispsFromRawNodes order r = .ok gs) ↔ ∀ n ∈ r, ∀ s, n.isp = some s → AsciiEnd s) ∧
      ((∃ gs, countriesFromRawNodes order r = .ok gs) ↔
        ∀ n ∈ r, ∀ s, n.geoData = some (some s) → AsciiEnd s) := by
  have key : ∀ key : RawNode → Option String, (∃ gs, groupsFromRawNodes order key r = .ok gs) ↔
      ∃ m, groupLoop key r [] = .ok m := by
    intro key
    unfold groupsFromRawNodes
    cases groupLoop key r [] with
    | error e => simp
    | ok m => simp
  refine ⟨(key _).trans (groupLoop_ok _ r []), ((key _).trans (groupLoop_ok _ r [])).trans ?_⟩
  refine forall_congr' (fun n => forall_congr' (fun _ => forall_congr' (fun s => ?_)))
  unfold RawNode.country
  cases n.geoData <;> simp

/-- C53: normalising names panics for the empty name, for a name consisting of commas, and for names
that do not end with an ASCII character; so does loading ISP groupings. -/
theorem C53_counterexample :
    removeSpecialChars "" = .error .outOfBounds ∧ removeSpecialChars ",," = .error .outOfBounds ∧
      removeSpecialChars "Telefônicá" = .error .outOfBounds ∧
      ∀ order, ispsFromRawNodes order [⟨"a", ⟨1, ["a"], []⟩, some "中国电信", none⟩] =
        .error .outOfBounds :=
  ⟨rfl, rfl, Ref.error_of (by decide +kernel), fun _ => rfl⟩

/-- Concrete case. -/
example : AsciiEnd "Télé, Inc." ∧ removeSpecialChars "Télé, Inc." = .ok "Télé Inc" :=
  ⟨⟨'.', by decide +kernel⟩, Ref.ok_of (by decide +kernel)⟩

#print axioms C53_name
#print axioms C53_groupings_partial
#print axioms C53_counterexample

/-! ## C54 -/

theorem groups_spec (order : List String → List String) (ho : ∀ l, (order l).Perm l)
    (key : RawNode → Option String) (r : RawFbas) (gs : List RawGrouping)
    (h : groupsFromRawNodes order key r = .ok gs) :
    (gs.map RawGrouping.name).Pairwise (· < ·) ∧
      ∀ nm vs, ⟨nm, vs⟩ ∈ gs ↔ vs = membersOf key r nm ∧ vs ≠ [] := by
  unfold groupsFromRawNodes at h
  cases hl : groupLoop key r [] with
  | error e => rw [hl] at h; cases h
  | ok m =>
    rw [hl] at h
    have hi := groupLoop_inv key r [] [] m (groupInv_nil key) hl
    rw [List.nil_append] at hi
    obtain rfl := Except.ok.inj h
    have hp := (List.perm_insertionSort (· ≤ ·) (order (m.map Prod.fst))).trans (ho _)
    have hs := List.pairwise_insertionSort (· ≤ ·) (order (m.map Prod.fst))
    have hnd := hp.nodup_iff.2 hi.nodup
    generalize (order (m.map Prod.fst)).insertionSort (· ≤ ·) = names at hp hs hnd
    have hmem : ∀ nm, nm ∈ names ↔ ∃ v, m.get? nm = some v := by
      intro nm
      rw [hp.mem_iff, Map.get?_isSome]
    constructor
    · have : (names.filterMap (fun name => (m.get? name).map
          (fun vs => (⟨name, vs⟩ : RawGrouping)))).map RawGrouping.name = names := by
        have hall : ∀ nm ∈ names, ∃ v, m.get? nm = some v := fun nm h => (hmem nm).1 h
        clear hp hs hnd hmem hl h
        induction names with
        | nil => rfl
        | cons a l ih =>
          obtain ⟨v, hv⟩ := hall a List.mem_cons_self
          rw [List.filterMap_cons_some (b := (⟨a, v⟩ : RawGrouping)) (by rw [hv]; rfl),
            List.map_cons, ih (fun nm hn => hall nm (List.mem_cons_of_mem _ hn))]
      rw [this]
      exact (hs.and hnd).imp (fun h => lt_of_le_of_ne h.1 h.2)
    · intro nm vs
      rw [← hi.get, List.mem_filterMap]
      constructor
      · rintro ⟨nm', -, hg⟩
        rw [Option.map_eq_some_iff] at hg
        obtain ⟨vs', hg, he⟩ := hg
        obtain ⟨rfl, rfl⟩ := RawGrouping.mk.inj he
        exact hg
      · intro hg
        exact ⟨nm, (hmem nm).2 ⟨vs, hg⟩, by rw [hg]; rfl⟩

/-- C54: the ISP groups are sorted by name, all different, not empty, and consist exactly of the public
keys of the nodes whose ISP has that plain name, in the order of the nodes; same for countries. -/
theorem C54_groups (order : List String → List String) (ho : ∀ l, (order l).Perm l) (r : RawFbas)
    (gs : List RawGrouping) :
    (ispsFromRawNodes order r = .ok gs → (gs.map RawGrouping.name).Pairwise (· < ·) ∧
      ∀ nm vs, ⟨nm, vs⟩ ∈ gs ↔ vs = membersOf RawNode.isp r nm ∧ vs ≠ []) ∧
    (countriesFromRawNodes order r = .ok gs → (gs.map RawGrouping.name).Pairwise (· < ·) ∧
      ∀ nm vs, ⟨nm, vs⟩ ∈ gs ↔ vs = membersOf RawNode.country r nm ∧ vs ≠ []) :=
  ⟨groups_spec order ho _ r gs, groups_spec order ho _ r gs⟩

/-- C54: the order in which the hash map lists its keys does not matter. -/
theorem C54_order (order order' : List String → List String) (ho : ∀ l, (order l).Perm l)
    (ho' : ∀ l, (order' l).Perm l) (r : RawFbas) :
    ispsFromRawNodes order r = ispsFromRawNodes order' r ∧
      countriesFromRawNodes order r = countriesFromRawNodes order' r := by
  have key : ∀ key, groupsFromRawNodes order key r = groupsFromRawNodes order' key r := by
    intro key
    unfold groupsFromRawNodes
    cases hl : groupLoop key r [] with
    | error e => rfl
    | ok m =>
      dsimp only
      rw [List.Perm.eq_of_pairwise' (List.pairwise_insertionSort (· ≤ ·) _)
        (List.pairwise_insertionSort (· ≤ ·) _)
        (((List.perm_insertionSort (· ≤ ·) _).trans (ho (m.map Prod.fst))).trans
          ((List.perm_insertionSort (· ≤ ·) _).trans (ho' (m.map Prod.fst))).symm)]
  exact ⟨key _, key _⟩

theorem mem_membersOf {key : RawNode → Option String} {r : RawFbas} {nm : String} {p : PublicKey} :
    p ∈ membersOf key r nm ↔
      ∃ n ∈ r, n.publicKey = p ∧ ∃ s, key n = some s ∧ plainName s = nm.toList := by
  unfold membersOf
  rw [List.mem_map]
  constructor
  · rintro ⟨n, hn, rfl⟩
    obtain ⟨h1, h2⟩ := List.mem_filter.1 hn
    cases hk : key n with
    | none => rw [hk] at h2; cases h2
    | some s => rw [hk] at h2; exact ⟨n, h1, rfl, s, hk, by simpa using h2⟩
  · rintro ⟨n, h1, rfl, s, hk, hs⟩
    exact ⟨n, List.mem_filter.2 ⟨h1, by rw [hk]; simpa using hs⟩, rfl⟩

theorem fromRaw_new (f : Fbas) (hf : RegistryOk f) (gs : List RawGrouping) :
    ∃ g, Groupings.fromRaw gs f = .ok g ∧ g.groupings = gs.map (Grouping.fromRaw f.pkToId) ∧
      MembersExist g.groupings f := by
  have hm : MembersExist (gs.map (Grouping.fromRaw f.pkToId)) f := by
    intro org ho v hv
    obtain ⟨g, -, rfl⟩ := List.mem_map.1 ho
    obtain ⟨p, -, hp⟩ := List.mem_filterMap.1 hv
    obtain ⟨n, hn, -⟩ := (hf p v).1 hp
    exact (List.getElem?_eq_some_iff.1 hn).1
  obtain ⟨g, hg, hgs, -⟩ := Groupings.new_ok (gs := gs.map (Grouping.fromRaw f.pkToId)) (f := f)
    (fun org ho v hv => hm org ho v (List.mem_of_mem_tail hv))
  exact ⟨g, hg, hgs, hgs ▸ hm⟩

/-- C54: for an FBAS with a correct map from public keys to IDs (see C36, C37, C40), loading
organizations never fails, unknown public keys are left out, and the members of groups exist. -/
theorem C54_load (f : Fbas) (hf : RegistryOk f) (gs : List RawGrouping) :
    ∃ g, Groupings.fromRaw gs f = .ok g ∧ MembersExist g.groupings f ∧
      List.Forall₂ (fun (raw : RawGrouping) (org : Grouping) => org.name = raw.name ∧
        ∀ v, v ∈ org.validators ↔ ∃ n, f.nodes[v]? = some n ∧ n.publicKey ∈ raw.validators)
        gs g.groupings := by
  obtain ⟨g, hg, hgs, hm⟩ := fromRaw_new f hf gs
  refine ⟨g, hg, hm, ?_⟩
  rw [hgs, List.forall₂_map_right_iff]
  refine List.forall₂_same.2 (fun raw _ => ⟨rfl, fun v => ?_⟩)
  show v ∈ raw.validators.filterMap f.pkToId.get? ↔ _
  rw [List.mem_filterMap]
  constructor
  · rintro ⟨p, hp, hv⟩
    obtain ⟨n, hn, rfl⟩ := (hf p v).1 hv
    exact ⟨n, hn, hp⟩
  · rintro ⟨n, hn, hp⟩
    exact ⟨_, hp, (hf _ v).2 ⟨n, hn, rfl⟩⟩

/-- C54: writing loaded groupings gives back names and known public keys. -/
theorem C54_save (f : Fbas) (hf : RegistryOk f) (gs : List RawGrouping) (g : Groupings)
    (hg : Groupings.fromRaw gs f = .ok g) :
    g.toRaw f = .ok (gs.map (fun raw => ⟨raw.name,
      raw.validators.filter (fun p => (f.getNodeId p).isSome)⟩)) := by
  obtain ⟨g', hg', hgs, -⟩ := fromRaw_new f hf gs
  rw [hg'] at hg
  obtain rfl := Except.ok.inj hg
  unfold Groupings.toRaw
  rw [hgs]
  have key : ∀ vs : List PublicKey, toPublicKeys (vs.filterMap f.pkToId.get?) f =
      .ok (vs.filter (fun p => (f.getNodeId p).isSome)) := by
    intro vs
    unfold toPublicKeys
    rw [mapE_eq_ok]
    induction vs with
    | nil => exact .nil
    | cons p vs ih =>
      cases hp : f.pkToId.get? p with
      | none =>
        rw [List.filterMap_cons_none hp, List.filter_cons_of_neg]
        · exact ih
        · rw [show f.getNodeId p = none from hp]; simp
      | some i =>
        rw [List.filterMap_cons_some hp, List.filter_cons_of_pos]
        · refine .cons ?_ ih
          obtain ⟨n, hn, rfl⟩ := (hf p i).1 hp
          rw [hn]
        · rw [show f.getNodeId p = some i from hp]; rfl
  rw [mapE_eq_ok, List.forall₂_map_left_iff, List.forall₂_map_right_iff]
  refine List.forall₂_same.2 (fun raw _ => ?_)
  unfold Grouping.toRaw Grouping.fromRaw
  dsimp only
  rw [key]

theorem partition_spec (order : List String → List String) (ho : ∀ l, (order l).Perm l)
    (key : RawNode → Option String) (r : RawFbas) (hd : DistinctKeys r) (gs : List RawGrouping)
    (h : groupsFromRawNodes order key r = .ok gs) :
    ∃ g, Groupings.fromRaw gs (Fbas.fromRaw r) = .ok g ∧ DisjointGroups g.groupings ∧
      MembersExist g.groupings (Fbas.fromRaw r) ∧ (∀ org ∈ g.groupings, org.validators ≠ []) ∧
      ∀ x n, r[x]? = some n →
        (key n = none → g.getByMember x = .ok none) ∧
        ∀ s, key n = some s → ∃ org, g.getByMember x = .ok (some org) ∧
          org.name.toList = plainName s ∧ org ∈ g.groupings ∧ x ∈ org.validators ∧
          ∀ org' ∈ g.groupings, x ∈ org'.validators → org' = org := by
  have hids : ∀ p i, (Fbas.fromRaw r).pkToId.get? p = some i ↔
      ∃ n, r[i]? = some n ∧ n.publicKey = p := by
    intro p i
    show (Fbas.rawIds r).get? p = some i ↔ _
    rw [rawIds_get?, lastIndex_of_distinct hd]
  have hreg : RegistryOk (Fbas.fromRaw r) := by
    intro p i
    refine (hids p i).trans ?_
    show (∃ n, r[i]? = some n ∧ n.publicKey = p) ↔
      ∃ n, (r.map (Node.fromRaw (Fbas.rawIds r)))[i]? = some n ∧ n.publicKey = p
    rw [List.getElem?_map]
    constructor
    · rintro ⟨n, hn, rfl⟩
      exact ⟨_, by rw [hn]; rfl, rfl⟩
    · rintro ⟨n, hn, rfl⟩
      rw [Option.map_eq_some_iff] at hn
      obtain ⟨n', hn', rfl⟩ := hn
      exact ⟨n', hn', rfl⟩
  obtain ⟨hsort, hgs⟩ := groups_spec order ho key r gs h
  obtain ⟨g, hg, hgg, hm⟩ := fromRaw_new _ hreg gs
  -- membership in the loaded groups
  have hmem : ∀ org ∈ g.groupings, ∀ x, x ∈ org.validators ↔
      ∃ n, r[x]? = some n ∧ ∃ s, key n = some s ∧ plainName s = org.name.toList := by
    intro org horg x
    rw [hgg] at horg
    obtain ⟨⟨nm, vs⟩, hraw, rfl⟩ := List.mem_map.1 horg
    obtain ⟨rfl, -⟩ := (hgs nm vs).1 hraw
    show x ∈ (membersOf key r nm).filterMap (Fbas.fromRaw r).pkToId.get? ↔ _
    rw [List.mem_filterMap]
    constructor
    · rintro ⟨p, hp, hx⟩
      obtain ⟨n', hn', rfl⟩ := (hids p x).1 hx
      obtain ⟨n, hn, he, s, hk, hs⟩ := mem_membersOf.1 hp
      have : n = n' := List.inj_on_of_nodup_map hd hn (List.mem_of_getElem? hn') he
      subst this
      exact ⟨n, hn', s, hk, hs⟩
    · rintro ⟨n, hn, s, hk, hs⟩
      exact ⟨n.publicKey, mem_membersOf.2 ⟨n, List.mem_of_getElem? hn, rfl, s, hk, hs⟩,
        (hids _ x).2 ⟨n, hn, rfl⟩⟩
  have huniq : ∀ a ∈ g.groupings, ∀ b ∈ g.groupings, a.name = b.name → a = b := by
    intro a ha b hb hab
    rw [hgg] at ha hb
    obtain ⟨a', ha', rfl⟩ := List.mem_map.1 ha
    obtain ⟨b', hb', rfl⟩ := List.mem_map.1 hb
    rw [List.inj_on_of_nodup_map (hsort.imp ne_of_lt) ha' hb' hab]
  have huniq' : ∀ a ∈ g.groupings, ∀ b ∈ g.groupings, ∀ x, x ∈ a.validators → x ∈ b.validators →
      a = b := by
    intro a ha b hb x hxa hxb
    obtain ⟨n, hn, s, hk, hs⟩ := (hmem a ha x).1 hxa
    obtain ⟨n', hn', s', hk', hs'⟩ := (hmem b hb x).1 hxb
    obtain rfl := Option.some.inj (hn.symm.trans hn')
    obtain rfl := Option.some.inj (hk.symm.trans hk')
    exact huniq a ha b hb (String.toList_injective (hs.symm.trans hs'))
  have hgm := fun x => C33_get_by_member _ _ g hg x
  rw [← hgg] at hgm
  refine ⟨g, hg, fun a ha b hb x hxa hxb => by rw [huniq' a ha b hb x hxa hxb], hm, ?_, ?_⟩
  · intro org horg he
    have horg' := horg
    rw [hgg] at horg'
    obtain ⟨⟨nm, vs⟩, hraw, rfl⟩ := List.mem_map.1 horg'
    obtain ⟨rfl, hne⟩ := (hgs nm vs).1 hraw
    obtain ⟨p, hp⟩ := List.exists_mem_of_ne_nil _ hne
    obtain ⟨n, hn, -, s, hk, hs⟩ := mem_membersOf.1 hp
    obtain ⟨x, hx, rfl⟩ := List.getElem_of_mem hn
    have := (hmem _ horg x).2 ⟨_, List.getElem?_eq_getElem hx, s, hk, hs⟩
    rw [he] at this
    cases this
  · intro x n hn
    constructor
    · intro hk
      rcases hgm x with ⟨h1, -⟩ | ⟨i, org, -, hi, hx, -⟩
      · exact h1
      · obtain ⟨n', hn', s, hk', -⟩ := (hmem org (List.mem_of_getElem? hi) x).1 hx
        obtain rfl := Option.some.inj (hn.symm.trans hn')
        rw [hk] at hk'
        cases hk'
    · intro s hk
      rcases hgm x with ⟨-, h2⟩ | ⟨i, org, h1, hi, hx, -⟩
      · have hp : n.publicKey ∈ membersOf key r (String.ofList (plainName s)) :=
          mem_membersOf.2 ⟨n, List.mem_of_getElem? hn, rfl, s, hk, String.toList_ofList.symm⟩
        have hraw := (hgs (String.ofList (plainName s)) _).2 ⟨rfl, List.ne_nil_of_mem hp⟩
        have horg : Grouping.fromRaw (Fbas.fromRaw r).pkToId
            ⟨String.ofList (plainName s), membersOf key r (String.ofList (plainName s))⟩ ∈
              g.groupings := by
          rw [hgg]
          exact List.mem_map.2 ⟨_, hraw, rfl⟩
        refine absurd ?_ (h2 _ horg)
        exact (hmem _ horg x).2 ⟨n, hn, s, hk, String.toList_ofList.symm⟩
      · have horg := List.mem_of_getElem? hi
        obtain ⟨n', hn', s', hk', hs'⟩ := (hmem org horg x).1 hx
        obtain rfl := Option.some.inj (hn.symm.trans hn')
        obtain rfl := Option.some.inj (hk.symm.trans hk')
        exact ⟨org, h1, hs'.symm, horg, hx, fun org' ho' hx' => huniq' _ ho' _ horg x hx' hx⟩

/-- C54: if loading the ISP groupings of an FBAS does not fail because of a name (see C53), groups are
disjoint and not empty, each node with an ISP is in exactly one group, which has the plain name of
the ISP, and nodes without an ISP are in no group. -/
theorem C54_isps (order : List String → List String) (ho : ∀ l, (order l).Perm l) (r : RawFbas)
    (hd : DistinctKeys r) (hn : ∀ n ∈ r, ∀ s, n.isp = some s → AsciiEnd s) :
    ∃ g, Groupings.ispsFromRaw order r (Fbas.fromRaw r) = .ok g ∧ DisjointGroups g.groupings ∧
      MembersExist g.groupings (Fbas.fromRaw r) ∧ (∀ org ∈ g.groupings, org.validators ≠ []) ∧
      ∀ x n, r[x]? = some n →
        (n.isp = none → g.getByMember x = .ok none) ∧
        ∀ s, n.isp = some s → ∃ org, g.getByMember x = .ok (some org) ∧
          org.name.toList = plainName s ∧ org ∈ g.groupings ∧ x ∈ org.validators ∧
          ∀ org' ∈ g.groupings, x ∈ org'.validators → org' = org := by
  obtain ⟨gs, hgs⟩ := (C53_groupings_partial order r).1.2 hn
  unfold Groupings.ispsFromRaw
  rw [hgs]
  exact partition_spec order ho _ r hd gs hgs

/-- C54: as `C54_isps`, for countries. -/
theorem C54_countries (order : List String → List String) (ho : ∀ l, (order l).Perm l) (r : RawFbas)
    (hd : DistinctKeys r) (hn : ∀ n ∈ r, ∀ s, n.geoData = some (some s) → AsciiEnd s) :
    ∃ g, Groupings.countriesFromRaw order r (Fbas.fromRaw r) = .ok g ∧
      DisjointGroups g.groupings ∧
      MembersExist g.groupings (Fbas.fromRaw r) ∧ (∀ org ∈ g.groupings, org.validators ≠ []) ∧
      ∀ x n, r[x]? = some n →
        ((n.geoData = none ∨ n.geoData = some none) → g.getByMember x = .ok none) ∧
        ∀ s, n.geoData = some (some s) → ∃ org, g.getByMember x = .ok (some org) ∧
          org.name.toList = plainName s ∧ org ∈ g.groupings ∧ x ∈ org.validators ∧
          ∀ org' ∈ g.groupings, x ∈ org'.validators → org' = org := by
  obtain ⟨gs, hgs⟩ := (C53_groupings_partial order r).2.2 hn
  unfold Groupings.countriesFromRaw
  rw [hgs]
  obtain ⟨g, h1, h2, h3, h4, h5⟩ := partition_spec order ho RawNode.country r hd gs hgs
  refine ⟨g, h1, h2, h3, h4, fun x n hx => ⟨fun h => (h5 x n hx).1 ?_, fun s h => (h5 x n hx).2 s ?_⟩⟩
  · unfold RawNode.country
    rcases h with h | h <;> rw [h]
  · unfold RawNode.country
    rw [h]

/-- Nodes with ISPs and countries. -/
def rawIsps : RawFbas :=
  [⟨"x", ⟨1, ["y"], []⟩, some "Foo, Inc.", some (some "Spain")⟩,
   ⟨"y", ⟨1, ["y"], []⟩, some "Bar", some none⟩, ⟨"z", ⟨1, ["y"], []⟩, some "Foo Inc", none⟩,
   ⟨"w", ⟨1, ["y"], []⟩, none, some (some "Spain")⟩]

/-- Concrete case. -/
example : ispsFromRawNodes id rawIsps = .ok [⟨"Bar", ["y"]⟩, ⟨"Foo Inc", ["x", "z"]⟩] ∧
    countriesFromRawNodes List.reverse rawIsps = .ok [⟨"Spain", ["x", "w"]⟩] ∧
    (Groupings.ispsFromRaw id rawIsps (Fbas.fromRaw rawIsps)).map Groupings.mergedIds =
      .ok [0, 1, 0, 3] :=
  ⟨Ref.ok_of (by decide +kernel), Ref.ok_of (by decide +kernel), Ref.ok_of (by decide +kernel)⟩

/-- Concrete case: the hypotheses of `C54_isps` hold. -/
example : DistinctKeys rawIsps ∧ ∀ n ∈ rawIsps, ∀ s, n.isp = some s → AsciiEnd s := by
  refine ⟨by unfold DistinctKeys; decide +kernel, ?_⟩
  refine (C53_groupings_partial id rawIsps).1.1 ⟨[⟨"Bar", ["y"]⟩, ⟨"Foo Inc", ["x", "z"]⟩], ?_⟩
  exact Ref.ok_of (by decide +kernel)

#print axioms C54_groups
#print axioms C54_order
#print axioms C54_load
#print axioms C54_save
#print axioms C54_isps
#print axioms C54_countries

end FA.Props
