import Verif.SpecBulk
import Verif.Lemmas.AsRel
import Verif.Lemmas.IoGroupings
import Verif.Lemmas.Threshold
import Verif.Lemmas.Symmetric
import Verif.Props.Io
import Verif.Props.Simulation

/-!
# Lemmas about bulk analyses
-/

namespace FA
open Spec Bulk

/-! ### Task lists -/

theorem analyzed_append {I O : Type} (a b : List (Task I O)) :
    analyzed (a ++ b) = analyzed a ++ analyzed b := by
  induction a with
  | nil => rfl
  | cons t a ih => cases t <;> simp [analyzed, ih]

theorem reused_append {I O : Type} (a b : List (Task I O)) :
    reused (a ++ b) = reused a ++ reused b := by
  induction a with
  | nil => rfl
  | cons t a ih => cases t <;> simp [reused, ih]

theorem analyzed_perm {I O : Type} {a b : List (Task I O)} (h : a.Perm b) :
    (analyzed a).Perm (analyzed b) := by
  induction h with
  | nil => exact .nil
  | cons t _ ih =>
    cases t with
    | reuse o => exact ih
    | analyze i => exact ih.cons i
  | swap t u l =>
    cases t <;> cases u <;> simp only [analyzed]
    · exact .refl _
    · exact .refl _
    · exact .refl _
    · exact .swap _ _ _
  | trans _ _ ih1 ih2 => exact ih1.trans ih2

theorem reused_perm {I O : Type} {a b : List (Task I O)} (h : a.Perm b) :
    (reused a).Perm (reused b) := by
  induction h with
  | nil => exact .nil
  | cons t _ ih =>
    cases t with
    | analyze o => exact ih
    | reuse i => exact ih.cons i
  | swap t u l =>
    cases t <;> cases u <;> simp only [reused]
    · exact .swap _ _ _
    · exact .refl _
    · exact .refl _
    · exact .refl _
  | trans _ _ ih1 ih2 => exact ih1.trans ih2

theorem mem_analyzed {I O : Type} {ts : List (Task I O)} {i : I} :
    i ∈ analyzed ts ↔ Task.analyze i ∈ ts := by
  induction ts with
  | nil => simp [analyzed]
  | cons t ts ih => cases t <;> simp [analyzed, ih]

theorem mem_reused {I O : Type} {ts : List (Task I O)} {o : O} :
    o ∈ reused ts ↔ Task.reuse o ∈ ts := by
  induction ts with
  | nil => simp [reused]
  | cons t ts ih => cases t <;> simp [reused, ih]

theorem analyzed_map_reuse {I O : Type} (os : List O) :
    analyzed (I := I) (os.map Task.reuse) = [] := by
  induction os with
  | nil => rfl
  | cons o os ih => exact ih

theorem reused_map_reuse {I O : Type} (os : List O) :
    reused (I := I) (os.map Task.reuse) = os := by
  induction os with
  | nil => rfl
  | cons o os ih => simp [reused, ih]

theorem analyzed_filterMap {I O : Type} (p : I → Bool) (is : List I) :
    analyzed (O := O) (is.filterMap (fun i => if p i then none else some (Task.analyze i))) =
      is.filter (fun i => !p i) := by
  induction is with
  | nil => rfl
  | cons i is ih =>
    by_cases hp : p i
    · simp [hp, ih]
    · simp [hp, ih, analyzed]

theorem reused_filterMap {I O : Type} (p : I → Bool) (is : List I) :
    reused (O := O) (is.filterMap (fun i => if p i then none else some (Task.analyze i))) = [] := by
  induction is with
  | nil => rfl
  | cons i is ih =>
    by_cases hp : p i
    · simp [hp, ih]
    · simp [hp, ih, reused]

/-! ### Maps -/

theorem Map.collect_nodup {K V : Type} [DecidableEq K] (l : List (K × V)) :
    ((Map.collect l).map Prod.fst).Nodup := by
  unfold Map.collect
  induction l using List.reverseRecOn with
  | nil => exact List.nodup_nil
  | append_singleton l p ih =>
    rw [List.foldl_append]
    exact Map.nodup_insert _ _ ih

theorem Map.collect_values {O K : Type} [DecidableEq K] (key : O → K) (l : List O) :
    ((loadExistingOutputs key l).map Prod.snd).Perm (lastLines key l) ∧
      (∀ p ∈ loadExistingOutputs key l, p.1 = key p.2) ∧
      ∀ k, k ∈ (loadExistingOutputs key l).map Prod.fst ↔ k ∈ l.map key := by
  classical
  have gen : ∀ (l : List O) (m : Map K O), (∀ p ∈ m, p.1 = key p.2) →
      (((l.map (fun d => (key d, d))).foldl (fun m p => Map.insert m p.1 p.2) m).map Prod.snd).Perm
        ((m.filter (fun p => decide (p.1 ∉ l.map key))).map Prod.snd ++ lastLines key l) ∧
      (∀ p ∈ (l.map (fun d => (key d, d))).foldl (fun m p => Map.insert m p.1 p.2) m,
        p.1 = key p.2) ∧
      ∀ k, k ∈ ((l.map (fun d => (key d, d))).foldl (fun m p => Map.insert m p.1 p.2) m).map
        Prod.fst ↔ k ∈ m.map Prod.fst ∨ k ∈ l.map key := by
    intro l
    induction l with
    | nil => intro m hm; simp [lastLines]; exact fun a b h => hm _ h
    | cons o l ih =>
      intro m hm
      rw [List.map_cons, List.foldl_cons]
      have hins : ∀ p ∈ Map.insert m (key o) o, p.1 = key p.2 := by
        intro p hp
        unfold Map.insert at hp
        rcases List.mem_cons.1 hp with rfl | hp
        · rfl
        · exact hm p (List.mem_filter.1 hp).1
      obtain ⟨h1, h2, h3⟩ := ih (Map.insert m (key o) o) hins
      refine ⟨h1.trans ?_, h2, fun k => ?_⟩
      · have hfil : (m.filter (fun p => decide (p.1 ≠ key o))).filter
            (fun p => decide (p.1 ∉ l.map key)) =
            m.filter (fun p => decide (p.1 ∉ (o :: l).map key)) := by
          rw [List.filter_filter]
          apply List.filter_congr
          intro p _
          simp only [List.map_cons, List.mem_cons, not_or, Bool.decide_and]
          rw [Bool.and_comm]
        unfold Map.insert
        by_cases ho : key o ∈ l.map key
        · rw [List.filter_cons_of_neg (by simpa using ho), hfil, lastLines, if_pos ho]
        · rw [List.filter_cons_of_pos (by simpa using ho), hfil, lastLines, if_neg ho, List.map_cons]
          exact (List.perm_middle).symm
      · rw [h3]
        unfold Map.insert
        simp only [List.map_cons, List.mem_cons]
        by_cases hk : k = key o
        · simp [hk]
        · have : k ∈ (m.filter (fun p => decide (p.1 ≠ key o))).map Prod.fst ↔
              k ∈ m.map Prod.fst := by
            constructor
            · intro h
              obtain ⟨p, hp, rfl⟩ := List.mem_map.1 h
              exact List.mem_map.2 ⟨p, (List.mem_filter.1 hp).1, rfl⟩
            · intro h
              obtain ⟨p, hp, rfl⟩ := List.mem_map.1 h
              exact List.mem_map.2 ⟨p, List.mem_filter.2 ⟨hp, by simpa using hk⟩, rfl⟩
          rw [this]
          simp [hk]
  obtain ⟨h1, h2, h3⟩ := gen l [] (by simp)
  rw [List.filter_nil, List.map_nil, List.nil_append] at h1
  refine ⟨h1, h2, fun k => (h3 k).trans ?_⟩
  rw [List.map_nil]
  simp only [List.not_mem_nil, false_or]

theorem lastLines_nodup {O K : Type} (key : O → K) (l : List O) :
    ((lastLines key l).map key).Nodup ∧ ∀ k, k ∈ (lastLines key l).map key ↔ k ∈ l.map key := by
  classical
  induction l with
  | nil => simp [lastLines]
  | cons o l ih =>
    rw [lastLines]
    by_cases h : key o ∈ l.map key
    · rw [if_pos h]
      refine ⟨ih.1, fun k => ?_⟩
      rw [ih.2, List.map_cons, List.mem_cons]
      constructor
      · exact .inr
      · rintro (rfl | hk)
        · exact h
        · exact hk
    · rw [if_neg h, List.map_cons, List.nodup_cons, ih.2]
      refine ⟨⟨h, ih.1⟩, fun k => ?_⟩
      rw [List.mem_cons, ih.2, List.map_cons, List.mem_cons]

theorem lastLines_eq {O K : Type} {key : O → K} {l : List O} (h : (l.map key).Nodup) :
    lastLines key l = l := by
  classical
  induction l with
  | nil => rfl
  | cons o l ih =>
    rw [List.map_cons, List.nodup_cons] at h
    rw [lastLines, if_neg h.1, ih h.2]

theorem mem_lastLines {O K : Type} {key : O → K} {l : List O} {o : O} (h : o ∈ lastLines key l) :
    o ∈ l := by
  classical
  induction l with
  | nil => exact h
  | cons a l ih =>
    rw [lastLines] at h
    split at h
    · exact List.mem_cons_of_mem _ (ih h)
    · rcases List.mem_cons.1 h with rfl | h
      · exact List.mem_cons_self
      · exact List.mem_cons_of_mem _ (ih h)

theorem mem_newInputs {I O K : Type} {keyI : I → K} {keyO : O → K} {inputs : List I}
    {lines : List O} {i : I} :
    i ∈ newInputs keyI keyO inputs lines ↔ i ∈ inputs ∧ keyI i ∉ lines.map keyO := by
  classical
  unfold newInputs
  rw [List.mem_filter]
  exact and_congr_right (fun _ => by simp)

theorem newInputs_sublist {I O K : Type} (keyI : I → K) (keyO : O → K) (inputs : List I)
    (lines : List O) : (newInputs keyI keyO inputs lines).Sublist inputs := List.filter_sublist

theorem tasklist_spec {I O K L : Type} [LinearOrder K] [DecidableEq K] [LinearOrder L] (keyI : I → K) (keyO : O → K)
    (labelI : I → L) (labelO : O → L) (inputs : List I) (lines : List O) :
    let tasks := makeSortedTasklist keyI labelI labelO inputs (loadExistingOutputs keyO lines)
    tasks.Pairwise (fun a b => a.label labelI labelO ≤ b.label labelI labelO) ∧
      (analyzed tasks).Perm (newInputs keyI keyO inputs lines) ∧
      (reused tasks).Perm (lastLines keyO lines) := by
  intro tasks
  have hperm : tasks.Perm (_ ++ _) :=
    List.perm_insertionSort _ _
  obtain ⟨h1, h2, h3⟩ := Map.collect_values keyO lines
  refine ⟨?_, ?_, ?_⟩
  · have : Std.Total (fun a b : Task I O => a.label labelI labelO ≤ b.label labelI labelO) :=
      ⟨fun a b => le_total _ _⟩
    have : IsTrans (Task I O) (fun a b => a.label labelI labelO ≤ b.label labelI labelO) :=
      ⟨fun a b c => le_trans⟩
    exact List.pairwise_insertionSort _ _
  · refine (analyzed_perm hperm).trans ?_
    rw [analyzed_append, analyzed_filterMap, analyzed_map_reuse, List.append_nil]
    refine List.Perm.of_eq ?_
    · apply List.filter_congr
      intro i _
      have h4 := @Map.get?_isSome _ _ LinearOrder.toDecidableEq
        (loadExistingOutputs keyO lines) (keyI i)
      rw [h3, ← Option.isSome_iff_exists] at h4
      by_cases hk : keyI i ∈ lines.map keyO
      · rw [h4.2 hk]; simp only [Bool.not_true]
        exact (decide_eq_false_iff_not.2 (not_not_intro hk)).symm
      · rw [Bool.eq_false_iff.2 (fun h => hk (h4.1 h))]
        simp [hk]
  · refine (reused_perm hperm).trans ?_
    rw [reused_append, reused_filterMap, reused_map_reuse, List.nil_append]
    exact ((List.perm_insertionSort _ _).map _).trans h1

/-! ### Labels -/

namespace Text

theorem split_cons (sep c : Char) (s : Text) :
    split sep (c :: s) =
      if c = sep then [] :: split sep s
      else
        match split sep s with
        | [] => [[c]]
        | p :: ps => (c :: p) :: ps := rfl

theorem split_append' (sep : Char) (a b : Text) :
    split sep (a ++ sep :: b) = split sep a ++ split sep b := by
  induction a with
  | nil => rw [List.nil_append, split_cons, if_pos rfl]; rfl
  | cons c a ih =>
    rw [List.cons_append, split_cons, split_cons, ih]
    by_cases hc : c = sep
    · rw [if_pos hc, if_pos hc]; rfl
    · rw [if_neg hc, if_neg hc]
      obtain ⟨p, ps, hp⟩ := List.exists_cons_of_ne_nil (split_ne_nil sep a)
      rw [hp]; rfl

theorem isPrefixOf_append {part x b : Text} {sep : Char} (h : sep ∉ part) :
    part.isPrefixOf (x ++ sep :: b) = part.isPrefixOf x := by
  rw [Bool.eq_iff_iff, List.isPrefixOf_iff_prefix, List.isPrefixOf_iff_prefix]
  constructor
  · intro hp
    rcases List.prefix_or_prefix_of_prefix hp (List.prefix_append x (sep :: b)) with h1 | h1
    · exact h1
    · obtain ⟨r, rfl⟩ := h1
      rw [List.prefix_append_right_inj] at hp
      cases r with
      | nil => simp
      | cons c r =>
        obtain ⟨rfl, -⟩ := List.cons_prefix_cons.1 hp
        exact absurd (by simp) h
  · exact fun hp => hp.trans (List.prefix_append _ _)

theorem removeAux_cons (part : Text) (k : ℕ) (c : Char) (s : Text) :
    removeAux part (k + 1) (c :: s) =
      if part.isPrefixOf (c :: s) then removeAux part k ((c :: s).drop part.length)
      else c :: removeAux part k s := rfl

theorem removeAux_fuel {part : Text} (hp : part ≠ []) {k k' : ℕ} {s : Text} (hk : s.length < k)
    (hk' : s.length < k') : removeAux part k s = removeAux part k' s := by
  induction k generalizing k' s with
  | zero => omega
  | succ k ih =>
    obtain ⟨j, rfl⟩ : ∃ j, k' = j + 1 := ⟨k' - 1, by omega⟩
    cases s with
    | nil => rfl
    | cons c s =>
      rw [removeAux_cons, removeAux_cons]
      rw [List.length_cons] at hk hk'
      have hlen : ((c :: s).drop part.length).length ≤ s.length := by
        rw [List.length_drop, List.length_cons]
        have := List.length_pos_of_ne_nil hp
        omega
      split
      · exact ih (by omega) (by omega)
      · rw [ih (k' := j) (s := s) (by omega) (by omega)]

theorem removeAux_append {part : Text} (hp : part ≠ []) {sep : Char} (hs : sep ∉ part) {k : ℕ}
    {a b : Text} (hk : a.length + b.length + 1 < k) :
    removeAux part k (a ++ sep :: b) = removeAux part k a ++ sep :: removeAux part k b := by
  induction k generalizing a with
  | zero => omega
  | succ k ih =>
    cases a with
    | nil =>
      rw [List.nil_append, removeAux_cons]
      have : part.isPrefixOf (sep :: b) = false := by
        have := isPrefixOf_append (x := []) (b := b) hs
        rw [List.nil_append] at this
        rw [this]
        cases part with
        | nil => exact absurd rfl hp
        | cons => rfl
      rw [if_neg (by rw [this]; decide)]
      have hnil : removeAux part (k + 1) [] = [] := rfl
      rw [hnil, List.nil_append]
      rw [removeAux_fuel hp (k' := k + 1) (by simp at hk; omega) (by simp at hk; omega)]
    | cons c a =>
      rw [List.cons_append, removeAux_cons, removeAux_cons, ← List.cons_append, isPrefixOf_append hs]
      rw [List.length_cons] at hk
      have hb : removeAux part (k + 1) b = removeAux part k b :=
        removeAux_fuel hp (by omega) (by omega)
      rw [hb]
      split
      · rename_i hpre
        have hle : part.length ≤ (c :: a).length :=
          (List.isPrefixOf_iff_prefix.1 hpre).length_le
        rw [List.drop_append_of_le_length hle]
        apply ih
        have := List.length_pos_of_ne_nil hp
        rw [List.length_drop, List.length_cons]
        omega
      · rw [ih (by omega), List.cons_append]

theorem remove_append {part : Text} (hp : part ≠ []) {sep : Char} (hs : sep ∉ part) (a b : Text) :
    remove part (a ++ sep :: b) = remove part a ++ sep :: remove part b := by
  unfold remove
  rw [removeAux_append hp hs (by rw [List.length_append, List.length_cons]; omega),
    removeAux_fuel hp (s := a) (k' := a.length + 1) (by simp; omega) (by omega),
    removeAux_fuel hp (s := b) (k' := b.length + 1) (by simp; omega) (by omega)]

/-- `split_terminator` of the parts. -/
def dropTerminator (ps : List Text) : List Text := if ps.getLast? = some [] then ps.dropLast else ps

theorem dropTerminator_append (a b : List Text) (hb : b ≠ []) :
    dropTerminator (a ++ b) = a ++ dropTerminator b := by
  unfold dropTerminator
  obtain ⟨c, x, rfl⟩ := List.eq_nil_or_concat b |>.resolve_left hb
  rw [List.concat_eq_append, ← List.append_assoc, List.getLast?_concat, List.getLast?_concat,
    List.dropLast_concat, List.dropLast_concat]
  split <;> simp

end Text

open Text

/-- The parts of a file name that make up the label. -/
def labelParts (s ignore : Text) : List Text :=
  (dropTerminator (split '_' s)).filter
    (fun s => !["nodes".toList, "organizations".toList, ignore].contains s)

theorem extractLabel_eq (d s ignore : Text) :
    extractLabel ⟨d, s⟩ ignore = join ['_'] (labelParts (remove ".json".toList s) ignore) := rfl

/-- A part that is ignored. -/
def Ignored (w : Text) : Prop := w = "nodes".toList ∨ w = "organizations".toList

theorem Ignored.facts {w : Text} (h : Ignored w) (ignore : Text) :
    remove ".json".toList w = w ∧ remove ".json".toList (w ++ ".json".toList) = w ∧ '_' ∉ w ∧
      w ≠ [] ∧ ["nodes".toList, "organizations".toList, ignore].contains w = true := by
  rcases h with rfl | rfl
  · exact ⟨by decide, by decide, by decide, by decide, by simp⟩
  · exact ⟨by decide, by decide, by decide, by decide, by simp⟩

theorem labelParts_middle {w : Text} (h : Ignored w) (ignore a b : Text) :
    labelParts (a ++ '_' :: (w ++ '_' :: b)) ignore = labelParts (a ++ '_' :: b) ignore := by
  obtain ⟨-, -, h1, h2, h3⟩ := h.facts ignore
  unfold labelParts
  rw [split_append', split_append', split_append', split_of_notMem h1]
  rw [dropTerminator_append _ _ (by simp), dropTerminator_append _ _ (split_ne_nil _ _),
    dropTerminator_append _ _ (split_ne_nil _ _), List.filter_append, List.filter_append,
    List.filter_append]
  congr 1
  rw [List.filter_cons_of_neg (by rw [h3]; decide)]
  rfl

theorem labelParts_first {w : Text} (h : Ignored w) (ignore b : Text) :
    labelParts (w ++ '_' :: b) ignore = labelParts b ignore := by
  obtain ⟨-, -, h1, h2, h3⟩ := h.facts ignore
  unfold labelParts
  rw [split_append', split_of_notMem h1, dropTerminator_append _ _ (split_ne_nil _ _),
    List.filter_append, List.filter_cons_of_neg (by rw [h3]; decide)]
  rfl

theorem labelParts_last {w : Text} (h : Ignored w) (ignore a : Text) :
    labelParts (a ++ '_' :: w) ignore =
      (split '_' a).filter
        (fun s => !["nodes".toList, "organizations".toList, ignore].contains s) := by
  obtain ⟨-, -, h1, h2, h3⟩ := h.facts ignore
  unfold labelParts
  rw [split_append', split_of_notMem h1, dropTerminator_append _ _ (by simp), List.filter_append]
  have : dropTerminator [w] = [w] := by
    unfold dropTerminator
    rw [if_neg]
    intro hc
    exact h2 (Option.some.inj hc)
  rw [this, List.filter_cons_of_neg (by rw [h3]; decide), List.filter_nil, List.append_nil]

/-! ### Input files -/

theorem contains_iff {s part : Text} : s.contains part = true ↔ part <:+: s := by
  unfold Text.contains
  rw [List.any_eq_true]
  simp only [List.mem_tails, List.isPrefixOf_iff_prefix]
  constructor
  · rintro ⟨t, h1, h2⟩; exact h2.isInfix.trans h1.isInfix
  · rintro ⟨a, b, rfl⟩
    exact ⟨part ++ b, ⟨a, by simp⟩, List.prefix_append _ _⟩

theorem mem_extractNodesPaths {ps : List Path} {p : Path} :
    p ∈ extractNodesPaths ps ↔ p ∈ ps ∧ IsNodesFile p := by
  unfold extractNodesPaths IsNodesFile
  rw [List.mem_filter, List.mem_filter, Text.endsWith, List.isSuffixOf_iff_suffix, ← contains_iff,
    and_assoc]
  simp

open Classical in
theorem extractNodesPaths_eq (ps : List Path) :
    extractNodesPaths ps = ps.filter (fun p => decide (IsNodesFile p)) := by
  unfold extractNodesPaths
  rw [List.filter_filter]
  apply List.filter_congr
  intro p _
  rw [Bool.eq_iff_iff, Bool.and_eq_true, decide_eq_true_iff, IsNodesFile, Text.endsWith,
    List.isSuffixOf_iff_suffix, ← contains_iff, and_comm]
  simp

open Classical in
/-- The files with organizations. -/
theorem organizationsFiles_eq (ps : List Path) :
    (ps.filter (fun p => p.fileName.endsWith ".json".toList)).filter
      (fun p => p.fileName.contains "organizations".toList) =
      ps.filter (fun p => decide (IsOrganizationsFile p)) := by
  rw [List.filter_filter]
  apply List.filter_congr
  intro p _
  rw [Bool.eq_iff_iff, Bool.and_eq_true, decide_eq_true_iff, IsOrganizationsFile, Text.endsWith,
    List.isSuffixOf_iff_suffix, ← contains_iff, and_comm]

theorem Map.collect_length {K V : Type} [DecidableEq K] (key : V → K) (l : List V) :
    (loadExistingOutputs key l).length ≤ l.length ∧
      ((loadExistingOutputs key l).length = l.length ↔ (l.map key).Nodup) := by
  classical
  have h1 := (Map.collect_values key l).1.length_eq
  rw [List.length_map] at h1
  rw [h1]
  clear h1
  induction l with
  | nil => simp [lastLines]
  | cons o l ih =>
    rw [lastLines]
    by_cases h : key o ∈ l.map key
    · rw [if_pos h, List.length_cons, List.map_cons, List.nodup_cons]
      refine ⟨by omega, ⟨fun h' => by omega, fun h' => absurd h h'.1⟩⟩
    · rw [if_neg h, List.length_cons, List.length_cons, List.map_cons, List.nodup_cons,
        Nat.add_right_cancel_iff, ih.2]
      exact ⟨by omega, ⟨fun h' => ⟨h, h'⟩, fun h' => h'.2⟩⟩

/-! ### Almost symmetric FBASs -/

theorem slice_add_member {Q : NodeSet} {q : QuorumSet} {x : NodeId} (hx : x ∈ Q)
    (ht : 1 ≤ q.threshold) :
    Slice Q ⟨q.threshold + 1, q.validators ++ [x], q.inner⟩ ↔ Slice Q q := by
  classical
  obtain ⟨t, vs, qs⟩ := q
  rw [slice_iff_count, slice_iff_count]
  simp only [List.filter_append, List.length_append]
  have : [x].filter (fun y => decide (y ∈ Q)) = [x] := by simp [hx]
  rw [this]
  simp only [List.length_singleton]
  have ht' : 1 ≤ t := ht
  constructor
  · rintro ⟨-, h⟩; exact ⟨ht', by omega⟩
  · rintro ⟨-, h⟩; exact ⟨by omega, by omega⟩

theorem addGenericNodes_spec (q : QuorumSet) (k : ℕ) : ∀ (m : ℕ) (g : Fbas), RegistryOk g →
    g.nodes = (List.range m).map (fun i => (⟨"n" ++ toString i, q⟩ : Node)) →
    ∃ f, addGenericNodes q k g = .ok f ∧
      f.nodes = (List.range (m + k)).map (fun i => (⟨"n" ++ toString i, q⟩ : Node)) ∧
      RegistryOk f := by
  induction k with
  | zero => intro m g hg hn; exact ⟨g, rfl, hn, hg⟩
  | succ k ih =>
    intro m g hg hn
    have hl : g.nodes.length = m := by rw [hn]; simp
    obtain ⟨h1, h2⟩ := Props.C40_add_generic_node g hg q
    cases hr : g.addGenericNode q with
    | error e =>
      obtain ⟨n', hn', hp⟩ := h1.1 ⟨e, hr⟩
      rw [hn] at hn'
      obtain ⟨i, hi, rfl⟩ := List.mem_map.1 hn'
      have := genericNodeName_inj (i := i) (j := g.nodes.length) hp
      rw [List.mem_range] at hi
      omega
    | ok p =>
      obtain ⟨-, h4, h5⟩ := h2 p.1 p.2 hr
      rw [addGenericNodes, hr]
      obtain ⟨f, hf1, hf2, hf3⟩ := ih (m + 1) p.2 h5 (by
        rw [h4, hl, hn, List.range_succ, List.map_append]; rfl)
      exact ⟨f, hf1, by rw [hf2]; congr 2; omega, hf3⟩

/-- The quorum set of node 0. -/
def zeroQuorumSet (q : QuorumSet) : QuorumSet := ⟨q.threshold + 1, q.validators ++ [0], q.inner⟩

theorem almostSymmetric_spec (q : QuorumSet) {n : ℕ} (hn : 1 ≤ n) :
    ∃ f, almostSymmetricFbas q n = .ok f ∧ f.nodes.length = n ∧
      HasQSet f 0 (zeroQuorumSet q) ∧ ∀ x : ℕ, 0 < x → x < n → HasQSet f x q := by
  obtain ⟨f, h1, h2, -⟩ := addGenericNodes_spec q n 0 Fbas.new (fun pk i => by
    constructor
    · intro h; cases h
    · rintro ⟨n, hn, -⟩; simp [Fbas.new] at hn) rfl
  rw [Nat.zero_add] at h2
  have hlen : f.nodes.length = n := by rw [h2]; simp
  have h0 : (0 : ℕ) < f.nodes.length := by omega
  unfold almostSymmetricFbas changeNodeZero Fbas.swapQuorumSet
  rw [h1]
  simp only
  rw [List.getElem?_eq_getElem h0]
  refine ⟨_, rfl, ?_, ?_, ?_⟩
  · simp only [List.length_set]; exact hlen
  · refine ⟨_, List.getElem?_set_self h0, rfl⟩
  · intro x hx hxn
    refine ⟨⟨"n" ++ toString x, q⟩, ?_, rfl⟩
    dsimp only
    rw [List.getElem?_set_ne (by omega), h2, List.getElem?_map, List.getElem?_range hxn]
    rfl

theorem almostSymmetric_zero (q : QuorumSet) :
    almostSymmetricFbas q 0 = .error .outOfBounds := rfl

theorem Spec.HasQSet.unique {f : Fbas} {x : NodeId} {a b : QuorumSet} (ha : HasQSet f x a)
    (hb : HasQSet f x b) : a = b := by
  obtain ⟨n, h1, rfl⟩ := ha
  obtain ⟨n', h2, rfl⟩ := hb
  rw [h1] at h2
  rw [Option.some.inj h2]

theorem Spec.AllHave.quorum_iff {g : Fbas} {q : QuorumSet} (hg : AllHave g q) {Q : NodeSet} :
    IsQuorum g Q ↔ Q.Nonempty ∧ (∀ x ∈ Q, x < g.nodes.length) ∧ Slice Q q := by
  constructor
  · intro h
    have hsub : ∀ x ∈ Q, x < g.nodes.length := fun x hx => Finset.mem_range.1 (h.subset_all hx)
    refine ⟨h.1, hsub, ?_⟩
    obtain ⟨x, hx⟩ := h.1
    obtain ⟨q', hq', hs⟩ := h.2 x hx
    rw [(hg x (hsub x hx)).unique hq']
    exact hs
  · rintro ⟨h1, h2, h3⟩
    exact ⟨h1, fun x hx => ⟨q, hg x (h2 x hx), h3⟩⟩

theorem almostSymmetric_quorum_iff {q : QuorumSet} {n : ℕ} (ht : 1 ≤ q.threshold)
    {f : Fbas} (hlen : f.nodes.length = n) (h0 : HasQSet f 0 (zeroQuorumSet q))
    (hx : ∀ x : ℕ, 0 < x → x < n → HasQSet f x q) {Q : NodeSet} :
    IsQuorum f Q ↔ Q.Nonempty ∧ (∀ x ∈ Q, x < n) ∧ Slice Q q := by
  constructor
  · intro h
    have hsub : ∀ x ∈ Q, x < n := fun x hx => hlen ▸ Finset.mem_range.1 (h.subset_all hx)
    refine ⟨h.1, hsub, ?_⟩
    obtain ⟨x, hxQ⟩ := h.1
    obtain ⟨q', hq', hs⟩ := h.2 x hxQ
    by_cases hx0 : x = 0
    · subst hx0
      rw [← h0.unique hq'] at hs
      exact (slice_add_member hxQ ht).1 hs
    · rw [(hx x (Nat.pos_of_ne_zero hx0) (hsub x hxQ)).unique hq']
      exact hs
  · rintro ⟨h1, h2, h3⟩
    refine ⟨h1, fun x hxQ => ?_⟩
    by_cases hx0 : x = 0
    · subst hx0
      exact ⟨_, h0, (slice_add_member hxQ ht).2 h3⟩
    · exact ⟨q, hx x (Nat.pos_of_ne_zero hx0) (h2 x hxQ), h3⟩

theorem slice_stellarlike_iff {Q : NodeSet} {m : ℕ} (hm : 1 ≤ m) :
    Slice Q (stellarlikeQuorumSet m) ↔
      Qsc.calculate67pThreshold m ≤
        ((Finset.range m).filter (fun o => 2 ≤ ({3 * o, 3 * o + 1, 3 * o + 2} ∩ Q).card)).card := by
  classical
  have horg : ∀ o : ℕ, Slice Q ⟨2, [o * 3, o * 3 + 1, o * 3 + 2], []⟩ ↔
      2 ≤ ({3 * o, 3 * o + 1, 3 * o + 2} ∩ Q).card := by
    intro o
    rw [slice_flat_iff]
    have hnd : [o * 3, o * 3 + 1, o * 3 + 2].Nodup := by simp
    rw [← List.toFinset_card_of_nodup (hnd.filter _)]
    have : ([o * 3, o * 3 + 1, o * 3 + 2].filter (fun x => decide (x ∈ Q))).toFinset =
        {3 * o, 3 * o + 1, 3 * o + 2} ∩ Q := by
      ext x
      simp only [List.mem_toFinset, List.mem_filter, List.mem_cons, List.not_mem_nil, or_false,
        decide_eq_true_eq, Finset.mem_inter, Finset.mem_insert, Finset.mem_singleton,
        Nat.mul_comm o 3]
    rw [this]
    exact ⟨fun h => h.2, fun h => ⟨by omega, h⟩⟩
  unfold stellarlikeQuorumSet
  rw [slice_iff_count]
  have hpos := (Props.C41_bounds m hm).1
  simp only [List.filter_nil, List.length_nil, Nat.zero_add, rangeFT_zero, List.filter_map,
    List.length_map]
  have : ((List.range m).filter ((fun q' => decide (Slice Q q')) ∘
      fun orgId => (⟨2, [orgId * 3, orgId * 3 + 1, orgId * 3 + 2], []⟩ : QuorumSet))).length =
      ((Finset.range m).filter (fun o => 2 ≤ ({3 * o, 3 * o + 1, 3 * o + 2} ∩ Q).card)).card := by
    rw [← List.toFinset_card_of_nodup (List.nodup_range.filter _)]
    congr 1
    ext o
    simp only [List.mem_toFinset, List.mem_filter, List.mem_range, Function.comp,
      decide_eq_true_eq, Finset.mem_filter, Finset.mem_range, horg]
  rw [this]
  exact ⟨fun h => h.2, fun h => ⟨hpos, h⟩⟩

theorem almostSymmetric_no_cluster {q : QuorumSet} {n : ℕ} {f : Fbas}
    (h0 : HasQSet f 0 (zeroQuorumSet q))
    (hx : ∀ x : ℕ, 0 < x → x < n → HasQSet f x q) (hq0 : Mentions q 0)
    (hqx : ∃ x : ℕ, 0 < x ∧ x < n ∧ Mentions q x) (S : NodeSet) (hS : ∀ x ∈ S, x < n) :
    findSymmetricClustersInNodeSet f S = [] := by
  rw [List.eq_nil_iff_forall_not_mem]
  intro p hp
  rw [mem_findSymmetricClustersInNodeSet] at hp
  obtain ⟨⟨y, hy⟩, h2⟩ := hp
  have qs : ∀ {x : ℕ} {a : QuorumSet}, HasQSet f x a → f.qset x = a := by
    rintro x a ⟨node, h3, rfl⟩
    unfold Fbas.qset
    rw [h3]
  have hne : zeroQuorumSet q ≠ q := by
    intro h
    have := congrArg QuorumSet.threshold h
    simp [zeroQuorumSet] at this
  have hqzero := qs h0
  obtain ⟨x, hx0, hxn, hxq⟩ := hqx
  have hqx' := qs (hx x hx0 hxn)
  obtain ⟨hyS, hyp⟩ := h2 y hy
  by_cases hy0 : y = 0
  · subst hy0
    rw [hqzero] at hyp
    have hm : x ∈ p.containedNodes := by
      rw [QuorumSet.mem_containedNodes, ← hyp]
      cases hxq with
      | validator h => exact .validator (by simp [zeroQuorumSet, h])
      | inner h h' => exact .inner (q' := _) (by simpa [zeroQuorumSet] using h) h'
    have := (h2 x hm).2
    rw [hqx', ← hyp] at this
    exact hne this.symm
  · have hyq := qs (hx y (Nat.pos_of_ne_zero hy0) (hS y hyS))
    rw [hyq] at hyp
    have hm : 0 ∈ p.containedNodes := by rw [QuorumSet.mem_containedNodes, ← hyp]; exact hq0
    have := (h2 0 hm).2
    rw [hqzero, ← hyp] at this
    exact hne this

end FA
