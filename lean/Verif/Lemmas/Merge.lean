import Verif.Lemmas.Groupings
import Verif.SpecGroups

/-!
# Proofs about merging quorum sets by group
-/

namespace FA
open Spec

namespace Groupings
open QuorumSet

theorem mergeFinish_threshold (t : ℕ) (vs : List ℕ) (qs : List QuorumSet) :
    (mergeFinish t vs qs).inner = qs.filter (fun q => !(q.validators.length == 1)) := by
  unfold mergeFinish
  dsimp only
  split
  · rfl
  · split <;> rfl

/-- The validators that `merge_quorum_set` collects before collapsing. -/
def collected (vs : List ℕ) (qs : List QuorumSet) : List ℕ :=
  vs ++ (qs.filter (fun q => q.validators.length == 1)).flatMap (fun q => q.validators.take 1)

theorem mergeFinish_eq (t : ℕ) (vs : List ℕ) (qs : List QuorumSet) :
    (∃ w, w ∈ collected vs qs ∧ (∀ x ∈ collected vs qs, x = w) ∧ mergeFinish t vs qs =
        ⟨1, [w], qs.filter (fun q => !(q.validators.length == 1))⟩) ∨
      ((∀ w ∈ collected vs qs, ∃ x ∈ collected vs qs, x ≠ w) ∧ mergeFinish t vs qs =
        ⟨t, collected vs qs, qs.filter (fun q => !(q.validators.length == 1))⟩) := by
  unfold mergeFinish
  dsimp only
  rw [← collected.eq_1]
  cases hc : collected vs qs with
  | nil => exact .inr ⟨by simp, rfl⟩
  | cons v l =>
    dsimp only
    split
    next h =>
      rw [List.all_eq_true] at h
      exact .inl ⟨v, List.mem_cons_self, fun x hx => by simpa using h x hx, rfl⟩
    next h =>
      refine .inr ⟨fun w _ => ?_, rfl⟩
      by_contra hall
      push Not at hall
      apply h
      rw [List.all_eq_true]
      intro x hx
      rw [hall x hx, ← hall v List.mem_cons_self]
      simp

/-- With total `merge_node`. -/
noncomputable def mergeQ (m : ℕ → ℕ) (q : QuorumSet) : QuorumSet :=
  QuorumSet.rec (motive_1 := fun _ => QuorumSet) (motive_2 := fun _ => List QuorumSet)
    (fun t vs _ qs' => mergeFinish t (vs.map m) qs') [] (fun _ _ a b => a :: b) q

theorem mergeQ_eq (m : ℕ → ℕ) (t : ℕ) (vs : List ℕ) (qs : List QuorumSet) :
    mergeQ m ⟨t, vs, qs⟩ = mergeFinish t (vs.map m) (qs.map (mergeQ m)) := by
  show mergeFinish t (vs.map m) _ = _
  congr 1
  induction qs with
  | nil => rfl
  | cons q qs ih => rw [List.map_cons, ← ih]; rfl

theorem mergeQuorumSets_eq (g : Groupings) (qs : List QuorumSet) :
    g.mergeQuorumSets qs = mapE g.mergeQuorumSet qs := by
  induction qs with
  | nil => rfl
  | cons q qs ih =>
    rw [mergeQuorumSets, mapE, ih]
    cases g.mergeQuorumSet q with
    | error e => rfl
    | ok q' => cases mapE g.mergeQuorumSet qs <;> rfl

theorem mergeQuorumSet_ok {g : Groupings} {m : ℕ → ℕ} (q : QuorumSet)
    (h : ∀ x, Mentions q x → g.mergeNode x = .ok (m x)) :
    g.mergeQuorumSet q = .ok (mergeQ m q) := by
  induction q using QuorumSet.induct with
  | h t vs qs ih =>
    rw [mergeQuorumSet, mapE_ok (fun x hx => h x (.validator hx)), mergeQuorumSets_eq,
      mapE_ok (fun q hq => ih q hq (fun x hx => h x (.inner hq hx))), mergeQ_eq]

theorem mem_collected {vs : List ℕ} {qs : List QuorumSet} {w : ℕ} :
    w ∈ collected vs qs ↔ w ∈ vs ∨ ∃ q ∈ qs, q.validators = [w] := by
  unfold collected
  simp only [List.mem_append, List.mem_flatMap, List.mem_filter, beq_iff_eq]
  refine or_congr_right (exists_congr fun q => ?_)
  constructor
  · rintro ⟨⟨h1, h2⟩, h3⟩
    obtain ⟨v, hv⟩ := List.length_eq_one_iff.1 h2
    rw [hv] at h3
    simp at h3
    exact ⟨h1, by rw [hv, h3]⟩
  · rintro ⟨h1, h2⟩
    rw [h2]
    exact ⟨⟨h1, rfl⟩, by simp⟩

theorem mentions_mergeQ (m : ℕ → ℕ) (q : QuorumSet) (y : ℕ) (h : Mentions (mergeQ m q) y) :
    ∃ x, Mentions q x ∧ m x = y := by
  induction q using QuorumSet.induct generalizing y with
  | h t vs qs ih =>
    rw [mergeQ_eq] at h
    have hcol : ∀ w ∈ collected (vs.map m) (qs.map (mergeQ m)),
        ∃ x, Mentions ⟨t, vs, qs⟩ x ∧ m x = w := by
      intro w hw
      rcases mem_collected.1 hw with hw | ⟨q, hq, hqw⟩
      · obtain ⟨x, hx, rfl⟩ := List.mem_map.1 hw
        exact ⟨x, .validator hx, rfl⟩
      · obtain ⟨p, hp, rfl⟩ := List.mem_map.1 hq
        obtain ⟨x, hx, he⟩ := ih p hp w (.validator (by rw [hqw]; simp))
        exact ⟨x, .inner hp hx, he⟩
    have hinn : ∀ p ∈ (qs.map (mergeQ m)).filter (fun q => !(q.validators.length == 1)),
        Mentions p y → ∃ x, Mentions ⟨t, vs, qs⟩ x ∧ m x = y := by
      intro p hp hpy
      obtain ⟨p', hp', rfl⟩ := List.mem_map.1 (List.mem_filter.1 hp).1
      obtain ⟨x, hx, he⟩ := ih p' hp' y hpy
      exact ⟨x, .inner hp' hx, he⟩
    rcases mergeFinish_eq t (vs.map m) (qs.map (mergeQ m)) with ⟨w, hw, -, he⟩ | ⟨-, he⟩
    · rw [he] at h
      cases h with
      | validator h =>
        simp only [List.mem_singleton] at h
        rw [h]; exact hcol w hw
      | inner hq h => exact hinn _ hq h
    · rw [he] at h
      cases h with
      | validator h => exact hcol y h
      | inner hq h => exact hinn _ hq h

/-! ### Meaning -/

theorem slice_single {G : NodeSet} {w : ℕ} : Slice G ⟨1, [w], []⟩ ↔ w ∈ G := by
  rw [← QuorumSet.isQuorumSlice_iff, isQuorumSlice_iff_count]
  by_cases h : w ∈ G <;> simp [h]

theorem _root_.FA.Spec.GroupShaped.sane {gs : List Grouping} {q : QuorumSet} (h : GroupShaped gs q) : Sane q := by
  induction h with
  | intro q hpos hle _ _ ih => exact .intro q hpos hle ih

theorem _root_.FA.Spec.Sane.exists_mentions {q : QuorumSet} (h : Sane q) : ∃ x, Mentions q x := by
  induction h with
  | intro q hpos hle hi ih =>
    cases hv : q.validators with
    | cons v l => exact ⟨v, .validator (by rw [hv]; simp)⟩
    | nil =>
      cases hq : q.inner with
      | nil => rw [hv, hq] at hle; simp at hle; omega
      | cons p l =>
        have hp : p ∈ q.inner := by rw [hq]; simp
        obtain ⟨x, hx⟩ := ih p hp
        exact ⟨x, .inner hp hx⟩

theorem _root_.FA.Spec.Sane.slice {q : QuorumSet} (h : Sane q) {S : NodeSet} (hS : ∀ x, Mentions q x → x ∈ S) :
    Slice S q := by
  induction h with
  | intro q hpos hle hi ih =>
    rw [← QuorumSet.isQuorumSlice_iff, isQuorumSlice_iff_count]
    refine ⟨hpos, ?_⟩
    rw [List.filter_eq_self.2 (fun x hx => by simpa using hS x (.validator hx)),
      List.filter_eq_self.2 (fun p hp => (QuorumSet.isQuorumSlice_iff S p).2
        (ih p hp (fun x hx => hS x (.inner hp hx))))]
    exact hle

theorem isQuorumSlice_append (S : NodeSet) (qs : List QuorumSet) (p : QuorumSet → Bool) :
    (qs.filter (QuorumSet.isQuorumSlice S)).length =
      ((qs.filter p).filter (QuorumSet.isQuorumSlice S)).length +
        ((qs.filter (fun q => !p q)).filter (QuorumSet.isQuorumSlice S)).length := by
  induction qs with
  | nil => rfl
  | cons q qs ih =>
    cases hp : p q <;> cases hs : QuorumSet.isQuorumSlice S q <;>
      simp [hp, hs, ih] <;> omega

/-- The shape of a merged quorum set. -/
theorem mergeQ_shape {gs : List Grouping} {m : ℕ → ℕ}
    (hm : ∀ x y, m x = m y ↔ SameGroup gs x y) {q : QuorumSet} (h : GroupShaped gs q) :
    (OneGroup gs q → ∃ x, Mentions q x ∧ mergeQ m q = ⟨1, [m x], []⟩) ∧
      (¬ OneGroup gs q → (mergeQ m q).validators.length ≠ 1 ∧
        mergeQ m q = ⟨q.threshold, collected (q.validators.map m) (q.inner.map (mergeQ m)),
          (q.inner.map (mergeQ m)).filter (fun q => !(q.validators.length == 1))⟩) := by
  induction h with
  | intro q hpos hle hmix hi ih =>
    obtain ⟨t, vs, qs⟩ := q
    dsimp only at *
    have hsane : Sane ⟨t, vs, qs⟩ := (GroupShaped.intro ⟨t, vs, qs⟩ hpos hle hmix hi).sane
    have hlen : ∀ p ∈ qs, ((mergeQ m p).validators.length = 1 ↔ OneGroup gs p) := by
      intro p hp
      constructor
      · intro h
        by_contra hno
        exact ((ih p hp).2 hno).1 h
      · intro h
        obtain ⟨x, -, he⟩ := (ih p hp).1 h
        rw [he]; rfl
    -- the collected validators are the merged IDs of the single-group part
    have hcol : ∀ w, w ∈ collected (vs.map m) (qs.map (mergeQ m)) ↔
        ∃ x, (x ∈ vs ∨ ∃ p ∈ qs, OneGroup gs p ∧ Mentions p x) ∧ m x = w := by
      intro w
      rw [mem_collected]
      constructor
      · rintro (h | ⟨q, hq, hqw⟩)
        · obtain ⟨x, hx, rfl⟩ := List.mem_map.1 h
          exact ⟨x, .inl hx, rfl⟩
        · obtain ⟨p, hp, rfl⟩ := List.mem_map.1 hq
          have hone := (hlen p hp).1 (by rw [hqw]; rfl)
          obtain ⟨x, hx, he⟩ := (ih p hp).1 hone
          rw [he] at hqw
          exact ⟨x, .inr ⟨p, hp, hone, hx⟩, by simpa using hqw⟩
      · rintro ⟨x, hx | ⟨p, hp, hone, hx⟩, rfl⟩
        · exact .inl (List.mem_map_of_mem hx)
        · obtain ⟨y, hy, he⟩ := (ih p hp).1 hone
          refine .inr ⟨_, List.mem_map_of_mem hp, ?_⟩
          rw [he, (hm x y).2 (hone x y hx hy)]
    rw [mergeQ_eq]
    constructor
    · intro hone
      have hinner : ∀ p ∈ qs, OneGroup gs p := fun p hp x y hx hy =>
        hone x y (.inner hp hx) (.inner hp hy)
      have hnil : (qs.map (mergeQ m)).filter (fun q => !(q.validators.length == 1)) = [] := by
        rw [List.filter_eq_nil_iff]
        intro q hq
        obtain ⟨p, hp, rfl⟩ := List.mem_map.1 hq
        simp [(hlen p hp).2 (hinner p hp)]
      obtain ⟨x, hx⟩ := hsane.exists_mentions
      have hx' : m x ∈ collected (vs.map m) (qs.map (mergeQ m)) := by
        rw [hcol]
        refine ⟨x, ?_, rfl⟩
        cases hx with
        | validator hx => exact .inl hx
        | inner hp hx => exact .inr ⟨_, hp, hinner _ hp, hx⟩
      have hall : ∀ w ∈ collected (vs.map m) (qs.map (mergeQ m)), w = m x := by
        intro w hw
        obtain ⟨y, hy, rfl⟩ := (hcol w).1 hw
        rw [hm]
        refine hone y x ?_ hx
        rcases hy with hy | ⟨p, hp, -, hy⟩
        · exact .validator hy
        · exact .inner hp hy
      refine ⟨x, hx, ?_⟩
      rcases mergeFinish_eq t (vs.map m) (qs.map (mergeQ m)) with ⟨w, hw, -, he⟩ | ⟨hne, -⟩
      · rw [he, hnil, hall w hw]
      · obtain ⟨w, hw, hne⟩ := hne _ hx'
        exact absurd (hall w hw) hne
    · intro hno
      rcases mergeFinish_eq t (vs.map m) (qs.map (mergeQ m)) with ⟨w, hw, hall, -⟩ | ⟨hne, he⟩
      · exfalso
        obtain ⟨x, hx, rfl⟩ := (hcol w).1 hw
        have hsame : ∀ y, (y ∈ vs ∨ ∃ p ∈ qs, OneGroup gs p ∧ Mentions p y) → SameGroup gs x y := by
          intro y hy
          rw [← hm]
          exact (hall _ ((hcol _).2 ⟨y, hy, rfl⟩)).symm
        have hinner : ∀ p ∈ qs, OneGroup gs p := by
          intro p hp
          by_contra hnp
          obtain ⟨y, hy, hns⟩ := hmix p hp hnp x hx
          exact hns (hsame y hy)
        apply hno
        have : ∀ y, Mentions ⟨t, vs, qs⟩ y → m y = m x := by
          intro y hy
          refine ((hm x y).2 (hsame y ?_)).symm
          cases hy with
          | validator hy => exact .inl hy
          | inner hp hy => exact .inr ⟨_, hp, hinner _ hp, hy⟩
        intro y z hy hz
        rw [← hm, this y hy, this z hz]
      · rw [he]
        refine ⟨fun h1 => ?_, rfl⟩
        dsimp only at h1
        obtain ⟨w, hw⟩ := List.length_eq_one_iff.1 h1
        rw [hw] at hne
        obtain ⟨x, hx, hxw⟩ := hne w (by simp)
        exact hxw (by simpa using hx)

/-- A merged quorum set means the same as the original at group level. -/
theorem slice_mergeQ {gs : List Grouping} {m : ℕ → ℕ}
    (hm : ∀ x y, m x = m y ↔ SameGroup gs x y) {E G : NodeSet} {q : QuorumSet}
    (h : GroupShaped gs q) (hE : ∀ x, Mentions q x → (x ∈ E ↔ m x ∈ G)) :
    Slice G (mergeQ m q) ↔ Slice E q := by
  induction h with
  | intro q hpos hle hmix hi ih =>
    have hg := GroupShaped.intro q hpos hle hmix hi
    by_cases hone : OneGroup gs q
    · obtain ⟨x, hx, he⟩ := (mergeQ_shape hm hg).1 hone
      rw [he, slice_single]
      have hsame : ∀ y, Mentions q y → m y = m x := fun y hy => (hm y x).2 (hone y x hy hx)
      constructor
      · intro hxG
        exact hg.sane.slice (fun y hy => (hE y hy).2 (by rw [hsame y hy]; exact hxG))
      · intro hs
        obtain ⟨y, hy, hyE⟩ := hs.nonempty
        rw [← hsame y hy]
        exact (hE y hy).1 hyE
    · obtain ⟨-, he⟩ := (mergeQ_shape hm hg).2 hone
      rw [he, ← QuorumSet.isQuorumSlice_iff, ← QuorumSet.isQuorumSlice_iff, isQuorumSlice_iff_count,
        isQuorumSlice_iff_count]
      dsimp only
      refine and_congr_right fun _ => ?_
      have hs : ∀ p ∈ q.inner, (mergeQ m p).isQuorumSlice G = p.isQuorumSlice E := by
        intro p hp
        rw [Bool.eq_iff_iff, QuorumSet.isQuorumSlice_iff, QuorumSet.isQuorumSlice_iff]
        exact ih p hp (fun x hx => hE x (.inner hp hx))
      have h1 : ((collected (q.validators.map m) (q.inner.map (mergeQ m))).filter
          (fun x => decide (x ∈ G))).length =
          (q.validators.filter (fun x => decide (x ∈ E))).length +
          (((q.inner.map (mergeQ m)).filter (fun q => q.validators.length == 1)).filter
            (QuorumSet.isQuorumSlice G)).length := by
        unfold collected
        rw [List.filter_append, List.length_append, List.filter_map, List.length_map]
        congr 1
        · congr 1
          refine List.filter_congr (fun x hx => ?_)
          simp only [Function.comp]
          rw [decide_eq_decide]
          exact (hE x (.validator hx)).symm
        · have key : ∀ p ∈ q.inner.map (mergeQ m), p.validators.length = 1 →
              ∃ w, p = ⟨1, [w], []⟩ := by
            intro p hp hl
            obtain ⟨p', hp', rfl⟩ := List.mem_map.1 hp
            by_cases ho : OneGroup gs p'
            · obtain ⟨x, -, he⟩ := (mergeQ_shape hm (hi p' hp')).1 ho
              exact ⟨_, he⟩
            · exact absurd hl ((mergeQ_shape hm (hi p' hp')).2 ho).1
          generalize q.inner.map (mergeQ m) = L at key
          induction L with
          | nil => rfl
          | cons p L ihL =>
            have ihL := ihL (fun p hp => key p (List.mem_cons_of_mem _ hp))
            by_cases hl : p.validators.length = 1
            · obtain ⟨w, rfl⟩ := key p List.mem_cons_self hl
              simp only [List.filter_cons, List.length_cons, List.length_nil, Nat.zero_add, beq_self_eq_true,
                if_true, List.flatMap_cons, List.take_succ_cons, List.take_zero, List.filter_append,
                List.length_append, ihL]
              have hsw := slice_single (G := G) (w := w)
              rw [← QuorumSet.isQuorumSlice_iff] at hsw
              by_cases hw : w ∈ G
              · simp [hw, hsw.2 hw]; omega
              · have : QuorumSet.isQuorumSlice G ⟨1, [w], []⟩ = false :=
                  Bool.eq_false_iff.2 (fun h => hw (hsw.1 h))
                simp [hw, this]
            · have : (p.validators.length == 1) = false := by simp [hl]
              simp only [List.filter_cons, this, Bool.false_eq_true, if_false]
              exact ihL
      have h2 : (q.inner.filter (QuorumSet.isQuorumSlice E)).length =
          ((q.inner.map (mergeQ m)).filter (QuorumSet.isQuorumSlice G)).length := by
        rw [List.filter_map, List.length_map]
        congr 1
        exact List.filter_congr (fun p hp => (hs p hp).symm)
      rw [h2, isQuorumSlice_append G (q.inner.map (mergeQ m)) (fun q => q.validators.length == 1), h1]
      omega

end Groupings
end FA
