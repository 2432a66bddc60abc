import Verif.Lemmas.Groupings
import Verif.Props.FrontEnd
import Mathlib.Algebra.Order.Field.Rat
import Mathlib.Data.Nat.Cast.Order.Ring

/-!
# C30, C31, C34, C35: results
-/

namespace FA.Props
open FA Spec

/-! ## C30 -/

/-- C30: `remove_non_minimal_node_sets` keeps exactly the sets that have no proper subset in the list,
and reports them in increasing order (in particular each once). -/
theorem C30_minimal (l : List NodeSet) :
    (∀ S, S ∈ removeNonMinimalNodeSets l ↔ S ∈ l ∧ ∀ T ∈ l, ¬ T ⊂ S) ∧
      (removeNonMinimalNodeSets l).Pairwise Before :=
  ⟨fun S => by rw [(removeNonMinimal_spec l).1, mem_minimal_iff],
    before_of (removeNonMinimal_sorted l) (removeNonMinimal_nodup l)⟩

/-- C30: every set of the list contains a set of the result. -/
theorem C30_covers (l : List NodeSet) (S : NodeSet) (h : S ∈ l) :
    ∃ T ∈ removeNonMinimalNodeSets l, T ⊆ S := by
  obtain ⟨T, hT, hTS⟩ := exists_minimal_sub (P := (· ∈ l)) h
  exact ⟨T, ((removeNonMinimal_spec l).1 T).2 hT, hTS⟩

/-- C30: the result only depends on the set of members of the list. -/
theorem C30_members (l l' : List NodeSet) (h : ∀ S, S ∈ l ↔ S ∈ l') :
    removeNonMinimalNodeSets l = removeNonMinimalNodeSets l' := by
  refine eq_of_lenLex (removeNonMinimal_sorted _) (removeNonMinimal_sorted _)
    (removeNonMinimal_nodup _) (removeNonMinimal_nodup _) (fun S => ?_)
  rw [(C30_minimal l).1, (C30_minimal l').1]
  simp only [h]

/-- C30: applying it twice changes nothing. -/
theorem C30_idempotent (l : List NodeSet) :
    removeNonMinimalNodeSets (removeNonMinimalNodeSets l) = removeNonMinimalNodeSets l := by
  refine eq_of_lenLex (removeNonMinimal_sorted _) (removeNonMinimal_sorted _)
    (removeNonMinimal_nodup _) (removeNonMinimal_nodup _) (fun S => ?_)
  rw [(C30_minimal _).1]
  refine ⟨fun h => h.1, fun h => ⟨h, fun T hT => ?_⟩⟩
  exact ((C30_minimal l).1 S |>.1 h).2 T ((C30_minimal l).1 T |>.1 hT).1

/-- C30: `minimal_sets` on a shrunken result, then unshrinking, is the same as unshrinking and then
removing the non-minimal sets. -/
theorem C30_unshrink (l l' : List NodeSet) (K : NodeSet)
    (h : (SetVecResult.new l (some (ShrinkManager.new K))).unwrap = .ok l') :
    (SetVecResult.new l (some (ShrinkManager.new K))).minimalSets.unwrap =
      .ok (removeNonMinimalNodeSets l') := by
  obtain ⟨hs, rfl⟩ := SetVecResult.ok_subset h
  rw [removeNonMinimal_unSet hs]
  exact SetVecResult.unwrap_new (fun S hS => hs S (((removeNonMinimal_spec l).1 S).1 hS).1)

/-- C30: the same for results that are not shrunken. -/
theorem C30_unshrunken (l : List NodeSet) :
    (SetVecResult.new l none).minimalSets.unwrap = .ok (removeNonMinimalNodeSets l) := rfl

/-- Concrete case. -/
example : removeNonMinimalNodeSets [{0, 1}, {0, 2, 3}, {3}, {0, 1}, {0, 1, 4, 5}] = [{3}, {0, 1}] ∧
    (SetVecResult.new [{0, 1}, {0, 2}, {0}] (some (ShrinkManager.new {7, 9, 12}))).unwrap =
      .ok [{7, 9}, {7, 12}, {7}] :=
  ⟨by decide +kernel, Ref.ok_of (by decide +kernel)⟩

#print axioms C30_minimal
#print axioms C30_covers
#print axioms C30_members
#print axioms C30_idempotent
#print axioms C30_unshrink
#print axioms C30_unshrunken

/-! ## C31 -/

/-- What `without_nodes` and `minimal_sets` do to the list of minimal members of a monotone family. -/
theorem without_nodes_minimal {P : NodeSet → Prop} (hP : ∀ S T, S ⊆ T → P S → P T)
    (r : SetVecResult) (l : List NodeSet) (hr : r.unwrap = .ok l) (hl : ∀ S, S ∈ l ↔ Minimal P S)
    (nodes : List NodeId) :
    ∃ r' l', r.withoutNodes nodes = .ok r' ∧ r'.minimalSets.unwrap = .ok l' ∧
      (∀ B, B ∈ l' ↔ Minimal (fun B => Disjoint B nodes.toFinset ∧ P (B ∪ nodes.toFinset)) B) ∧
      l'.Pairwise Before := by
  refine ⟨⟨l.map (· \ ofList nodes), none⟩, removeNonMinimalNodeSets (l.map (· \ ofList nodes)), ?_,
    rfl, fun B => ?_, (C30_minimal _).2⟩
  · unfold SetVecResult.withoutNodes
    rw [SetVecResult.unshrink_of_unwrap hr]
  · rw [(removeNonMinimal_spec _).1]
    exact minimal_sdiff hP hl _ _

/-- C31: if `r` holds the minimal blocking sets, then `r.without_nodes(F).minimal_sets()` holds exactly
the minimal sets `B` without members of `F` such that `B` together with `F` is blocking. -/
theorem C31_blocking (f : Fbas) (r : SetVecResult) (l : List NodeSet) (hr : r.unwrap = .ok l)
    (hl : ∀ B, B ∈ l ↔ IsMinBlocking f B) (F : List NodeId) :
    ∃ r' l', r.withoutNodes F = .ok r' ∧ r'.minimalSets.unwrap = .ok l' ∧
      (∀ B, B ∈ l' ↔
        Minimal (fun B => Disjoint B F.toFinset ∧ Blocking f (B ∪ F.toFinset)) B) ∧
      l'.Pairwise Before :=
  without_nodes_minimal Blocking.mono r l hr hl F

/-- C31, the same for minimal splitting sets (nodes `F` that are already Byzantine). -/
theorem C31_splitting (f : Fbas) (r : SetVecResult) (l : List NodeSet) (hr : r.unwrap = .ok l)
    (hl : ∀ B, B ∈ l ↔ IsMinSplitting f B) (F : List NodeId) :
    ∃ r' l', r.withoutNodes F = .ok r' ∧ r'.minimalSets.unwrap = .ok l' ∧
      (∀ B, B ∈ l' ↔
        Minimal (fun B => Disjoint B F.toFinset ∧ Splitting f (B ∪ F.toFinset)) B) ∧
      l'.Pairwise Before :=
  without_nodes_minimal Splitting.mono r l hr hl F

/-- C31 for names instead of node IDs: the removed nodes are those whose public key is listed. -/
theorem C31_public_keys (r : SetVecResult) (names : List String) (f : Fbas) :
    ∃ nodes, r.withoutNodesPretty names f none = r.withoutNodes nodes ∧
      ∀ x, x ∈ nodes ↔ ∃ name ∈ names, f.getNodeId name = some x :=
  ⟨_, rfl, fun x => by simp [fromPretty, fromPublicKeys]⟩

theorem mem_fromGroupingNames (names : List String) (f : Fbas) (g : Groupings) (x : NodeId) :
    x ∈ fromPretty names f (some g) ↔ ∃ name ∈ names,
        (∃ (i : ℕ) (org : Grouping), g.groupings[i]? = some org ∧ org.name = name ∧ x ∈ org.validators ∧
          ∀ (j : ℕ) (org' : Grouping), j < i → g.groupings[j]? = some org' → org'.name ≠ name) ∨
        ((∀ org ∈ g.groupings, org.name ≠ name) ∧ f.getNodeId name = some x) := by
  simp only [fromPretty, fromGroupingNames, List.mem_flatten, List.mem_map, exists_exists_and_eq_and]
  refine exists_congr fun name => and_congr_right fun _ => ?_
  cases hg : g.getByName name with
  | some org =>
    dsimp only
    unfold Groupings.getByName at hg
    obtain ⟨h1, pre, post, h2, h3⟩ := List.find?_eq_some_iff_append.1 hg
    simp only [decide_eq_true_eq] at h1
    constructor
    · intro hx
      refine .inl ⟨pre.length, org, by rw [h2]; simp, h1, hx, fun j org' hj ho => ?_⟩
      rw [h2, List.getElem?_append_left hj] at ho
      have := h3 _ (List.mem_of_getElem? ho)
      simpa using this
    · rintro (⟨i, o, hi, hn, hx, hfirst⟩ | ⟨hno, -⟩)
      · rcases lt_trichotomy i pre.length with h | h | h
        · rw [h2, List.getElem?_append_left h] at hi
          have := h3 _ (List.mem_of_getElem? hi)
          simp [hn] at this
        · subst h
          rw [h2] at hi
          simp at hi
          rw [hi]; exact hx
        · exact absurd h1 (hfirst pre.length org h (by rw [h2]; simp))
      · exact absurd h1 (hno org (by rw [h2]; simp))
  | none =>
    dsimp only
    unfold Groupings.getByName at hg
    rw [List.find?_eq_none] at hg
    have hno : ∀ org ∈ g.groupings, org.name ≠ name := fun org ho => by simpa using hg org ho
    constructor
    · intro hx
      refine .inr ⟨hno, ?_⟩
      split at hx
      next i hi => rw [hi]; simp at hx; rw [hx]
      · simp at hx
    · rintro (⟨i, o, hi, hn, -⟩ | ⟨-, hx⟩)
      · exact absurd hn (hno o (List.mem_of_getElem? hi))
      · rw [hx]; simp

/-- C31 for grouping names: the removed nodes are the members of the first group with each listed name
and, for names that are no group name, the node with that public key. -/
theorem C31_grouping_names (r : SetVecResult) (names : List String) (f : Fbas) (g : Groupings) :
    ∃ nodes, r.withoutNodesPretty names f (some g) = r.withoutNodes nodes ∧
      ∀ x, x ∈ nodes ↔ ∃ name ∈ names,
        (∃ (i : ℕ) (org : Grouping), g.groupings[i]? = some org ∧ org.name = name ∧ x ∈ org.validators ∧
          ∀ (j : ℕ) (org' : Grouping), j < i → g.groupings[j]? = some org' → org'.name ≠ name) ∨
        ((∀ org ∈ g.groupings, org.name ≠ name) ∧ f.getNodeId name = some x) :=
  ⟨_, rfl, mem_fromGroupingNames names f g⟩

/-- C31 for a single set of nodes (as the top tier): exactly the nodes whose public key is listed are
removed or, with groupings, the members of the first group with a listed name and the nodes whose public
key is listed and is no group name. -/
theorem C31_single_set (r : SetResult) (names : List String) (f : Fbas) (g : Groupings) (x : NodeId) :
    (x ∈ (r.withoutNodesPretty names f none).unwrap ↔
      x ∈ r.unwrap ∧ ∀ name ∈ names, f.getNodeId name ≠ some x) ∧
    (x ∈ (r.withoutNodesPretty names f (some g)).unwrap ↔ x ∈ r.unwrap ∧ ∀ name ∈ names,
      (∀ (i : ℕ) (org : Grouping), g.groupings[i]? = some org → org.name = name →
        (∀ (j : ℕ) (org' : Grouping), j < i → g.groupings[j]? = some org' → org'.name ≠ name) →
        x ∉ org.validators) ∧
      ((∀ org ∈ g.groupings, org.name ≠ name) → f.getNodeId name ≠ some x)) := by
  have key (nodes : List NodeId) : x ∈ (r.withoutNodes nodes).unwrap ↔ x ∈ r.unwrap ∧ x ∉ nodes := by
    show x ∈ nodes.foldl (fun s node => Finset.erase s node) r.nodeSet ↔ x ∈ r.nodeSet ∧ x ∉ nodes
    generalize r.nodeSet = s
    induction nodes generalizing s with
    | nil => simp
    | cons a l ih =>
      rw [List.foldl_cons, ih, Finset.mem_erase, List.mem_cons]
      tauto
  obtain ⟨n₁, h₁, h₁'⟩ : ∃ nodes, r.withoutNodesPretty names f none = r.withoutNodes nodes ∧
      ∀ x, x ∈ nodes ↔ ∃ name ∈ names, f.getNodeId name = some x :=
    ⟨_, rfl, fun x => by simp [fromPretty, fromPublicKeys]⟩
  refine ⟨by rw [h₁, key, h₁']; push Not; rfl, ?_⟩
  show x ∈ (r.withoutNodes (fromPretty names f (some g))).unwrap ↔ _
  rw [key, mem_fromGroupingNames]
  push Not
  refine and_congr_right fun _ => forall_congr' fun name => imp_congr_right fun _ =>
    and_congr ⟨?_, ?_⟩ Iff.rfl
  · intro h i org hi hn hfirst hx
    obtain ⟨j, o, hj, ho, he⟩ := h i org hi hn hx
    exact hfirst j o hj ho he
  · intro h i org hi hn hx
    by_contra hno
    push Not at hno
    exact h i org hi hn hno hx

/-- Concrete case: the first group with a listed name counts, and a public key that is also a group name
stands for the group. -/
example : ((SetResult.mk {0, 1, 2, 3}).withoutNodesPretty ["a", "c", "x"]
      ⟨[⟨"a", ⟨1, [0], []⟩⟩, ⟨"b", ⟨1, [1], []⟩⟩, ⟨"c", ⟨1, [2], []⟩⟩, ⟨"d", ⟨1, [2], []⟩⟩],
        [("a", 0), ("b", 1), ("c", 2), ("d", 3)]⟩ none).unwrap = {1, 3} ∧
    ((SetResult.mk {0, 1, 2, 3}).withoutNodesPretty ["a", "c", "x"]
      ⟨[⟨"a", ⟨1, [0], []⟩⟩, ⟨"b", ⟨1, [1], []⟩⟩, ⟨"c", ⟨1, [2], []⟩⟩, ⟨"d", ⟨1, [2], []⟩⟩],
        [("a", 0), ("b", 1), ("c", 2), ("d", 3)]⟩
      (some ⟨[⟨"a", [1]⟩, ⟨"a", [3]⟩], [0, 1, 2, 3], []⟩)).unwrap = {0, 3} := by
  decide +kernel

/-- Concrete case: a majority of four nodes is needed; one of them has failed. -/
example : (∀ B, B ∈ ([{0, 1}, {0, 2}, {1, 2}, {0, 3}, {1, 3}, {2, 3}] : List NodeSet) →
      IsMinBlocking (Ref.mkFbas (List.replicate 4 ⟨3, [0, 1, 2, 3], []⟩)) B) ∧
    ((SetVecResult.new [{0, 1}, {0, 2}, {1, 2}, {0, 3}, {1, 3}, {2, 3}] none).withoutNodes [3]).map
      (fun r => r.minimalSets.unwrap.toOption) = .ok (some [{0}, {1}, {2}]) :=
  ⟨by decide +kernel, Ref.ok_of (by decide +kernel)⟩

#print axioms C31_blocking
#print axioms C31_splitting
#print axioms C31_public_keys
#print axioms C31_grouping_names
#print axioms C31_single_set

/-! ## C34 -/

/-- C34: the statistics describe the list of sets. -/
theorem C34_statistics (r : SetVecResult) :
    r.len = r.nodeSets.length ∧ (r.isEmpty = true ↔ r.nodeSets = []) ∧
    (r.containsEmptySet = true ↔ ∅ ∈ r.nodeSets) ∧
    (∀ S ∈ r.nodeSets, r.min ≤ S.card ∧ S.card ≤ r.max) ∧
    (r.nodeSets ≠ [] → (∃ S ∈ r.nodeSets, S.card = r.min) ∧ ∃ S ∈ r.nodeSets, S.card = r.max) ∧
    (r.nodeSets = [] → r.min = 0 ∧ r.max = 0 ∧ r.mean = 0) ∧
    r.mean * r.nodeSets.length = (r.nodeSets.map Finset.card).sum := by
  refine ⟨rfl, by simp [SetVecResult.isEmpty], by simp [SetVecResult.containsEmptySet],
    fun S hS => ⟨r.min_spec.1 S hS, r.max_spec.1 S hS⟩,
    fun h => ⟨r.min_spec.2.1 h, r.max_spec.2.1 h⟩,
    fun h => ⟨r.min_spec.2.2 h, r.max_spec.2.2 h, by simp [SetVecResult.mean, h]⟩, ?_⟩
  unfold SetVecResult.mean
  split
  next h => simp only [List.isEmpty_iff] at h; simp [h]
  next h =>
    have : (r.nodeSets.length : ℚ) ≠ 0 := by
      rw [Ne, Nat.cast_eq_zero, List.length_eq_zero_iff]
      simpa using h
    rw [div_mul_cancel₀ _ this]

/-- C34: the histogram never panics, has an entry for every size up to the maximum, each entry is the
number of sets of that size, and the entries sum up to the number of sets. -/
theorem C34_histogram (r : SetVecResult) :
    ∃ h, r.histogram = .ok h ∧ h.length = r.max + 1 ∧ h.sum = r.len ∧
      ∀ k < r.max + 1, h[k]? = some ((r.nodeSets.filter (fun S => S.card = k)).length) := by
  obtain ⟨h, h1, h2, h3⟩ := r.histogram_ok
  refine ⟨h, h1, h2, ?_, fun k hk => by rw [h3 k hk, List.countP_eq_length_filter]⟩
  have he : h = (List.range (r.max + 1)).map
      (fun k => r.nodeSets.countP (fun S => decide (S.card = k))) := by
    apply List.ext_getElem?
    intro k
    by_cases hk : k < r.max + 1
    · rw [h3 k hk, List.getElem?_map, List.getElem?_range hk]; rfl
    · rw [List.getElem?_eq_none (by omega), List.getElem?_eq_none (by simp; omega)]
  rw [he, SetVecResult.sum_countP _ _ (fun S hS => Nat.lt_succ_of_le (r.max_spec.1 S hS))]
  rfl

/-- C34: `describe` combines these values. -/
theorem C34_describe (r : SetVecResult) :
    ∃ h, r.histogram = .ok h ∧
      r.describe = .ok (r.len, r.involvedNodes.card, (r.min, r.max, r.mean), h) := by
  obtain ⟨h, h1, _⟩ := C34_histogram r
  exact ⟨h, h1, by unfold SetVecResult.describe; rw [h1]; rfl⟩

/-- C34: all statistics (including the number of distinct nodes) are the same before and after
unshrinking. -/
theorem C34_unshrink (l l' : List NodeSet) (K : NodeSet)
    (h : (SetVecResult.new l (some (ShrinkManager.new K))).unwrap = .ok l') :
    let r := SetVecResult.new l (some (ShrinkManager.new K))
    let r' := SetVecResult.new l' none
    r.len = r'.len ∧ r.isEmpty = r'.isEmpty ∧ r.containsEmptySet = r'.containsEmptySet ∧
      r.min = r'.min ∧ r.max = r'.max ∧ r.mean = r'.mean ∧ r.histogram = r'.histogram ∧
      r.describe = r'.describe := by
  obtain ⟨hs, rfl⟩ := SetVecResult.ok_subset h
  intro r r'
  have hc : (l.map (unSet K)).map Finset.card = l.map Finset.card := by
    rw [List.map_map]
    exact List.map_congr_left (fun S hS => card_unSet (hs S hS))
  have hmin : r.min = r'.min := by
    show SetVecResult.min ⟨l, _⟩ = SetVecResult.min ⟨l.map (unSet K), none⟩
    unfold SetVecResult.min
    rw [hc]
  have hmax : r.max = r'.max := by
    show SetVecResult.max ⟨l, _⟩ = SetVecResult.max ⟨l.map (unSet K), none⟩
    unfold SetVecResult.max
    rw [hc]
  have hmean : r.mean = r'.mean := by
    show SetVecResult.mean ⟨l, _⟩ = SetVecResult.mean ⟨l.map (unSet K), none⟩
    unfold SetVecResult.mean
    rw [hc]
    simp
  have hh : r.histogram = r'.histogram := by
    obtain ⟨a, a1, a2, -, a3⟩ := C34_histogram r
    obtain ⟨b, b1, b2, -, b3⟩ := C34_histogram r'
    rw [a1, b1]
    congr 1
    apply List.ext_getElem?
    intro k
    by_cases hk : k < r.max + 1
    · rw [a3 k hk, b3 k (hmax ▸ hk)]
      congr 1
      show (l.filter _).length = ((l.map (unSet K)).filter _).length
      rw [List.filter_map, List.length_map]
      congr 1
      refine List.filter_congr (fun S hS => ?_)
      simp only [Function.comp, card_unSet (hs S hS)]
    · rw [List.getElem?_eq_none (by omega), List.getElem?_eq_none (by omega)]
  have hlen : r.len = r'.len := (List.length_map _).symm
  have hinv : r.involvedNodes.card = r'.involvedNodes.card := by
    show (involvedNodes l).card = (involvedNodes (l.map (unSet K))).card
    have hsub : involvedNodes l ⊆ Finset.range K.card := by
      intro x hx
      obtain ⟨S, hS, hx⟩ := mem_involvedNodes.1 hx
      exact hs S hS hx
    rw [← card_unSet hsub]
    congr 1
    ext x
    simp only [mem_involvedNodes, unSet, Finset.mem_image, List.mem_map]
    constructor
    · rintro ⟨i, ⟨S, hS, hi⟩, rfl⟩
      exact ⟨_, ⟨S, hS, rfl⟩, Finset.mem_image_of_mem _ hi⟩
    · rintro ⟨_, ⟨S, hS, rfl⟩, hx⟩
      obtain ⟨i, hi, rfl⟩ := Finset.mem_image.1 hx
      exact ⟨i, ⟨S, hS, hi⟩, rfl⟩
  refine ⟨hlen, ?_, ?_, hmin, hmax, hmean, hh, ?_⟩
  · rw [Bool.eq_iff_iff, (C34_statistics r).2.1, (C34_statistics r').2.1]
    exact List.map_eq_nil_iff.symm
  · rw [Bool.eq_iff_iff, (C34_statistics r).2.2.1, (C34_statistics r').2.2.1]
    show ∅ ∈ l ↔ ∅ ∈ l.map (unSet K)
    rw [List.mem_map]
    constructor
    · intro h; exact ⟨∅, h, rfl⟩
    · rintro ⟨S, hS, he⟩
      have := card_unSet (hs S hS)
      rw [he, Finset.card_empty] at this
      rw [← Finset.card_eq_zero.1 this.symm]; exact hS
  · obtain ⟨a, a1, a2⟩ := C34_describe r
    obtain ⟨b, b1, b2⟩ := C34_describe r'
    rw [a2, b2, hlen, hinv, hmin, hmax, hmean]
    rw [hh, b1] at a1
    rw [Except.ok.inj a1]

/-- Concrete case. -/
example : (SetVecResult.new [{0, 1}, {2, 3}, {4, 5, 6, 7}, {1, 4}] none).describe =
      .ok (4, 8, (2, 4, 5 / 2), [0, 0, 3, 0, 1]) ∧
    (SetVecResult.new [{0, 1}, {1}] (some (ShrinkManager.new {3, 5}))).unwrap =
      .ok [{3, 5}, {5}] :=
  ⟨Ref.ok_of (by decide +kernel), Ref.ok_of (by decide +kernel)⟩

#print axioms C34_statistics
#print axioms C34_histogram
#print axioms C34_describe
#print axioms C34_unshrink

/-! ## C35 -/

/-- `S'` consists of the original IDs of the shrunken IDs in `S`. -/
def Renames (table : Option (List NodeId)) (S S' : NodeSet) : Prop :=
  match table with
  | none => S' = S
  | some table => (∀ i ∈ S, i < table.length) ∧ ∀ x, x ∈ S' ↔ ∃ i ∈ S, table[i]? = some x

theorem renames_of_unshrinkSet {table : List NodeId} {S S' : NodeSet}
    (h : unshrinkSet table S = .ok S') : Renames (some table) S S' := by
  unfold unshrinkSet at h
  split at h
  · cases h
  next l hl =>
    have hS' : ofList l = S' := Except.ok.inj h
    rw [mapE_eq_ok] at hl
    have h1 : ∀ i ∈ S, ∃ x ∈ l, table[i]? = some x := by
      intro i hi
      obtain ⟨j, hj, rfl⟩ := List.getElem_of_mem (mem_elems.2 hi)
      have := List.forall₂_iff_get.1 hl
      refine ⟨l[j]'(this.1 ▸ hj), List.getElem_mem _, ?_⟩
      have := this.2 j hj (this.1 ▸ hj)
      dsimp only [List.get_eq_getElem] at this
      split at this
      next h => rw [h]; exact congrArg some (Except.ok.inj this)
      · cases this
    have h2 : ∀ x ∈ l, ∃ i ∈ S, table[i]? = some x := by
      intro x hx
      obtain ⟨j, hj, rfl⟩ := List.getElem_of_mem hx
      have := List.forall₂_iff_get.1 hl
      refine ⟨(elems S)[j]'(this.1 ▸ hj), mem_elems.1 (List.getElem_mem _), ?_⟩
      have := this.2 j (this.1 ▸ hj) hj
      dsimp only [List.get_eq_getElem] at this
      split at this
      next h => rw [h]; exact congrArg some (Except.ok.inj this)
      · cases this
    refine ⟨fun i hi => ?_, fun x => ?_⟩
    · obtain ⟨x, -, hx⟩ := h1 i hi
      exact (List.getElem?_eq_some_iff.1 hx).1
    · rw [← hS', ofList, List.mem_toFinset]
      constructor
      · exact h2 x
      · rintro ⟨i, hi, hx⟩
        obtain ⟨y, hy, hx'⟩ := h1 i hi
        rw [hx] at hx'
        rw [Option.some.inj hx']; exact hy

/-- C35: `unwrap` returns the sets translated to original IDs, in the same order; `into_vec_vec` the
same sets as increasing lists. -/
theorem C35_unwrap (r : SetVecResult) (l : List NodeSet) (h : r.unwrap = .ok l) :
    List.Forall₂ (Renames r.unshrinkTable) r.nodeSets l ∧
      ∃ ll, r.intoVecVec = .ok ll ∧
        List.Forall₂ (fun v (S : NodeSet) => v.Pairwise (· < ·) ∧ v.toFinset = S) ll l := by
  have hu := SetVecResult.unshrink_of_unwrap h
  constructor
  · unfold SetVecResult.unshrink at hu
    split at hu
    next table ht =>
      rw [ht]
      split at hu
      · cases hu
      next l' hl' =>
        have : l' = l := congrArg SetVecResult.nodeSets (Except.ok.inj hu)
        subst this
        exact (mapE_eq_ok.1 hl').imp (fun _ _ h => renames_of_unshrinkSet h)
    next ht =>
      have : r.nodeSets = l := congrArg SetVecResult.nodeSets (Except.ok.inj hu)
      rw [ht, ← this]
      exact List.forall₂_same.2 (fun _ _ => rfl)
  · refine ⟨l.map elems, by unfold SetVecResult.intoVecVec; rw [hu], ?_⟩
    rw [List.forall₂_map_left_iff, List.forall₂_same]
    exact fun S _ => ⟨elems_pairwise S, by ext x; simp⟩

/-- C35: results made with a shrink manager can be unwrapped exactly if all sets consist of shrunken
IDs. -/
theorem C35_unwrap_ok (l : List NodeSet) (K : NodeSet) :
    (∃ l', (SetVecResult.new l (some (ShrinkManager.new K))).unwrap = .ok l') ↔
      ∀ S ∈ l, ∀ i ∈ S, i < K.card := by
  constructor
  · rintro ⟨l', h⟩ S hS i hi
    exact Finset.mem_range.1 ((SetVecResult.ok_subset h).1 S hS hi)
  · intro h
    exact ⟨_, SetVecResult.unwrap_new (fun S hS i hi => Finset.mem_range.2 (h S hS i hi))⟩

/-- C35: the nodes passed to `without_nodes` are original IDs. -/
theorem C35_without_nodes (r : SetVecResult) (l : List NodeSet) (h : r.unwrap = .ok l)
    (nodes : List NodeId) :
    ∃ r', r.withoutNodes nodes = .ok r' ∧ r'.unwrap = .ok (l.map (· \ nodes.toFinset)) :=
  ⟨⟨l.map (· \ nodes.toFinset), none⟩, by
    unfold SetVecResult.withoutNodes
    rw [SetVecResult.unshrink_of_unwrap h], rfl⟩

/-- C35: `merged_by_group` merges the original IDs. -/
theorem C35_merged_by_group (r : SetVecResult) (l : List NodeSet) (h : r.unwrap = .ok l)
    (g : Groupings) (l' : List NodeSet) (hm : g.mergeNodeSets l = .ok l') :
    ∃ r', r.mergedByGroup g = .ok r' ∧ r'.unwrap = .ok l' :=
  ⟨⟨l', none⟩, by
    unfold SetVecResult.mergedByGroup
    rw [SetVecResult.unshrink_of_unwrap h]
    dsimp only
    rw [hm], rfl⟩

/-- C35: `into_pretty_vec_vec` looks up the original IDs. -/
theorem C35_pretty (r : SetVecResult) (l : List NodeSet) (h : r.unwrap = .ok l) (f : Fbas)
    (g : Option Groupings) :
    r.intoPrettyVecVec f g = (SetVecResult.new l none).intoPrettyVecVec f g := by
  have hu := SetVecResult.unshrink_of_unwrap h
  unfold SetVecResult.unshrink at hu
  split at hu
  next table ht =>
    split at hu
    · cases hu
    next l' hl' =>
      have : l' = l := congrArg SetVecResult.nodeSets (Except.ok.inj hu)
      subst this
      unfold SetVecResult.intoPrettyVecVec
      rw [ht]
      show mapE _ r.nodeSets = mapE (fun s => (SetResult.mk s).intoPrettyVec f g) l'
      clear hu h ht
      revert l'
      induction r.nodeSets with
      | nil => intro l' hl'; rw [unshrinkSets, mapE] at hl'; rw [← Except.ok.inj hl']; rfl
      | cons S L ih =>
        intro l' hl'
        rw [unshrinkSets, mapE_eq_ok] at hl'
        cases hl' with
        | cons h1 h2 =>
          rw [mapE, mapE]
          dsimp only
          rw [h1, ih _ (mapE_eq_ok.2 h2)]
  next ht =>
    have : r.nodeSets = l := congrArg SetVecResult.nodeSets (Except.ok.inj hu)
    obtain ⟨ns, tb⟩ := r
    dsimp only at this ht
    subst this ht
    rfl

/-- C35: without groupings, the names are the public keys of the nodes, in increasing order of the
node IDs. -/
theorem C35_pretty_names (l : List NodeSet) (f : Fbas)
    (h : ∀ S ∈ l, ∀ x ∈ S, x < f.nodes.length) :
    ∃ ll, (SetVecResult.new l none).intoPrettyVecVec f none = .ok ll ∧
      List.Forall₂ (fun (S : NodeSet) names => ∃ v : List NodeId, v.Pairwise (· < ·) ∧
        v.toFinset = S ∧ List.Forall₂ (fun x name => (f.nodes[x]?).map Node.publicKey = some name)
          v names) l ll := by
  let key : NodeId → PublicKey := fun x => ((f.nodes[x]?).map Node.publicKey).getD ""
  have hk : ∀ x < f.nodes.length, (f.nodes[x]?).map Node.publicKey = some (key x) := by
    intro x hx; simp [key, List.getElem?_eq_getElem hx]
  refine ⟨l.map (fun S => (elems S).map key), ?_, ?_⟩
  · refine mapE_ok (fun S hS => ?_)
    refine mapE_ok (fun x hx => ?_)
    have := hk x (h S hS x (mem_elems.1 hx))
    rw [Option.map_eq_some_iff] at this
    obtain ⟨node, hn, he⟩ := this
    rw [hn]; dsimp only; rw [he]
  · rw [List.forall₂_map_right_iff, List.forall₂_same]
    refine fun S hS => ⟨elems S, elems_pairwise S, by ext x; simp, ?_⟩
    rw [List.forall₂_map_right_iff, List.forall₂_same]
    exact fun x hx => hk x (h S hS x (mem_elems.1 hx))

/-- C35 for a single set: `NodeIdSetResult` stores original IDs. -/
theorem C35_set_result (s : NodeSet) (K : NodeSet) (r : SetResult)
    (h : SetResult.new s (some (ShrinkManager.new K)) = .ok r) :
    Renames (some (ShrinkManager.new K).unshrinkTable) s r.unwrap ∧ r.involvedNodes = r.unwrap ∧
      r.len = s.card ∧ r.intoVec.Pairwise (· < ·) ∧ r.intoVec.toFinset = r.unwrap ∧
      ∀ nodes, (r.withoutNodes nodes).unwrap = r.unwrap \ nodes.toFinset := by
  unfold SetResult.new at h
  dsimp only at h
  split at h
  · cases h
  next s' hs' =>
    obtain rfl := Except.ok.inj h
    have hr := renames_of_unshrinkSet hs'
    have hsub : s ⊆ Finset.range K.card := fun i hi => by
      have := hr.1 i hi
      rw [show (ShrinkManager.new K).unshrinkTable.length = K.card from length_elems K] at this
      exact Finset.mem_range.2 this
    refine ⟨hr, rfl, ?_, elems_pairwise _, by ext x; simp [SetResult.intoVec],
      fun nodes => ?_⟩
    · rw [unshrinkSet_ok hsub] at hs'
      show s'.card = s.card
      rw [← Except.ok.inj hs', card_unSet hsub]
    · show nodes.foldl (fun s node => s.erase node) s' = s' \ nodes.toFinset
      clear hr hs' h
      induction nodes generalizing s' with
      | nil => simp
      | cons a l ih =>
        rw [List.foldl_cons, ih]
        ext x
        simp only [Finset.mem_sdiff, Finset.mem_erase, List.mem_toFinset, List.mem_cons]
        tauto

/-- C35 for `involved_nodes` of unshrunken results.

Missing for the full statement: shrunken results, for which the claim is false, see
`C35_counterexample`. (The *number* of involved nodes is right, see `C34_unshrink`.) -/
theorem C35_involved_nodes_partial (l : List NodeSet) (x : NodeId) :
    x ∈ (SetVecResult.new l none).involvedNodes ↔ ∃ S ∈ l, x ∈ S := mem_involvedNodes

/-- Node 0 is not satisfiable, so the ID of node 1 is shrunken to 0. -/
def fbasInvolved : Fbas := Ref.mkFbas [⟨9, [0], []⟩, ⟨1, [1], []⟩]

/-- C35 is false for `involved_nodes`: the only minimal quorum is {1}, and the result holding it says
that node 0 is involved. -/
theorem C35_counterexample :
    ∃ a r a', Analysis.new (Ref.refEnv 2) fbasInvolved = .ok a ∧
      a.minimalQuorums (Ref.refEnv 2) = .ok (r, a') ∧ r.unwrap = .ok [{1}] ∧
      r.involvedNodes = {0} := by
  have h : ((match Analysis.new (Ref.refEnv 2) fbasInvolved with
      | Except.error e => Except.error e
      | Except.ok a => a.minimalQuorums (Ref.refEnv 2)).map Prod.fst : Except Panic SetVecResult) =
        Except.ok ⟨[{0}], some [1]⟩ := Ref.ok_of (by decide +kernel)
  cases hA : Analysis.new (Ref.refEnv 2) fbasInvolved with
  | error e => rw [hA] at h; cases h
  | ok a =>
    rw [hA] at h
    cases hQ : a.minimalQuorums (Ref.refEnv 2) with
    | error e => dsimp only at h; rw [hQ] at h; cases h
    | ok p =>
      dsimp only at h
      rw [hQ] at h
      obtain ⟨r, a'⟩ := p
      obtain rfl : r = _ := Except.ok.inj h
      exact ⟨a, _, a', rfl, hQ, Ref.ok_of (by decide +kernel), by decide +kernel⟩

/-- Concrete case. -/
example : (SetVecResult.new [{0, 1}, {0, 2}, {3}] (some (ShrinkManager.new {23, 42, 7, 1000}))).unwrap =
      .ok [{7, 23}, {7, 42}, {1000}] ∧
    ((SetVecResult.new [{0, 1}, {0, 2}, {3}] (some (ShrinkManager.new {23, 42, 7, 1000}))).withoutNodes
      [42, 1000]).map (fun r => r.unwrap.toOption) = .ok (some [{7, 23}, {7}, ∅]) ∧
    (SetResult.new {0, 1} (some (ShrinkManager.new {23, 42}))).map SetResult.unwrap =
      .ok {23, 42} ∧
    (SetVecResult.new [{0, 1}, {1}] none).intoPrettyVecVec fbasInvolved none =
      .ok [["n0", "n1"], ["n1"]] :=
  ⟨Ref.ok_of (by decide +kernel), Ref.ok_of (by decide +kernel), Ref.ok_of (by decide +kernel),
    Ref.ok_of (by decide +kernel)⟩

#print axioms C35_unwrap
#print axioms C35_unwrap_ok
#print axioms C35_without_nodes
#print axioms C35_merged_by_group
#print axioms C35_pretty
#print axioms C35_pretty_names
#print axioms C35_set_result
#print axioms C35_involved_nodes_partial
#print axioms C35_counterexample

end FA.Props
