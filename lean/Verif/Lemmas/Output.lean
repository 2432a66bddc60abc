import Verif.Model.Output
import Verif.SpecOutput
import Verif.Lemmas.Merge
import Verif.Lemmas.Json

/-!
# Proofs about the output of results
-/

namespace FA
open Spec

namespace QuorumSet

theorem height_eq (t : ℕ) (vs : List ℕ) (qs : List QuorumSet) :
    (QuorumSet.mk t vs qs).height = heightList qs + 1 := by rw [height]

theorem height_le_of_mem {q : QuorumSet} {qs : List QuorumSet} (h : q ∈ qs) :
    q.height ≤ heightList qs := by
  induction qs with
  | nil => simp at h
  | cons p ps ih =>
    rw [heightList]
    rcases List.mem_cons.1 h with rfl | h
    · exact le_max_left _ _
    · exact (ih h).trans (le_max_right _ _)

theorem heightList_le {qs : List QuorumSet} {n : ℕ} (h : ∀ q ∈ qs, q.height ≤ n) :
    heightList qs ≤ n := by
  induction qs with
  | nil => rw [heightList]; exact Nat.zero_le _
  | cons p ps ih =>
    rw [heightList]
    exact max_le (h p List.mem_cons_self) (ih fun q hq => h q (List.mem_cons_of_mem _ hq))

end QuorumSet

namespace Groupings

theorem mergeQuorumSet_mk (g : Groupings) (t : ℕ) (vs : List ℕ) (qs : List QuorumSet)
    {q' : QuorumSet} (h : g.mergeQuorumSet ⟨t, vs, qs⟩ = .ok q') :
    ∃ vs' qs', mapE g.mergeNode vs = .ok vs' ∧ mapE g.mergeQuorumSet qs = .ok qs' ∧
      q' = mergeFinish t vs' qs' := by
  rw [mergeQuorumSet] at h
  split at h
  · cases h
  next vs' h1 =>
    rw [mergeQuorumSets_eq] at h
    split at h
    · cases h
    next qs' h2 => exact ⟨vs', qs', h1, h2, (Except.ok.inj h).symm⟩

theorem mem_of_mapE {α β : Type} {F : α → Except Panic β} {l : List α} {l' : List β}
    (h : mapE F l = .ok l') {b : β} (hb : b ∈ l') : ∃ a ∈ l, F a = .ok b := by
  rw [mapE_eq_ok] at h
  induction h with
  | nil => simp at hb
  | cons h1 _ ih =>
    rcases List.mem_cons.1 hb with rfl | hb
    · exact ⟨_, List.mem_cons_self, h1⟩
    · obtain ⟨a, ha, he⟩ := ih hb
      exact ⟨a, List.mem_cons_of_mem _ ha, he⟩

/-- Merging does not increase the nesting depth. -/
theorem height_merge {g : Groupings} (q : QuorumSet) {q' : QuorumSet}
    (h : g.mergeQuorumSet q = .ok q') : q'.height ≤ q.height := by
  induction q using QuorumSet.induct generalizing q' with
  | h t vs qs ih =>
    obtain ⟨vs', qs', -, h2, rfl⟩ := mergeQuorumSet_mk g t vs qs h
    have hin := mergeFinish_threshold t vs' qs'
    generalize mergeFinish t vs' qs' = r at hin ⊢
    obtain ⟨t', ws, rs⟩ := r
    dsimp only at hin
    subst hin
    rw [QuorumSet.height_eq, QuorumSet.height_eq]
    refine Nat.succ_le_succ (QuorumSet.heightList_le fun p hp => ?_)
    obtain ⟨p0, hp0, he⟩ := mem_of_mapE h2 (List.mem_filter.1 hp).1
    exact (ih p0 hp0 he).trans (QuorumSet.height_le_of_mem hp0)

theorem mapE_ne_fuel {α β : Type} {F : α → Except Panic β} {l : List α}
    (h : ∀ a ∈ l, F a ≠ .error .fuel) : mapE F l ≠ .error .fuel := by
  induction l with
  | nil => simp [mapE]
  | cons a l ih =>
    rw [mapE]
    have h1 := h a List.mem_cons_self
    have h2 := ih fun b hb => h b (List.mem_cons_of_mem _ hb)
    cases he : F a with
    | error e => dsimp only; rw [he] at h1; exact fun hc => h1 (by rw [Except.error.inj hc])
    | ok b =>
      dsimp only
      cases hl : mapE F l with
      | error e => dsimp only; rw [hl] at h2; exact fun hc => h2 (by rw [Except.error.inj hc])
      | ok bs => intro hc; cases hc

theorem mergeNode_ne_fuel (g : Groupings) (x : ℕ) : g.mergeNode x ≠ .error .fuel := by
  unfold mergeNode
  split <;> (intro h; cases h)

theorem merge_ne_fuel (g : Groupings) (q : QuorumSet) : g.mergeQuorumSet q ≠ .error .fuel := by
  induction q using QuorumSet.induct with
  | h t vs qs ih =>
    rw [mergeQuorumSet, mergeQuorumSets_eq]
    have h1 := mapE_ne_fuel (l := vs) (fun x _ => mergeNode_ne_fuel g x)
    have h2 := mapE_ne_fuel ih
    split
    next e he => rw [he] at h1; exact fun hc => h1 (by rw [Except.error.inj hc])
    · split
      next e he => rw [he] at h2; exact fun hc => h2 (by rw [Except.error.inj hc])
      · intro h; cases h

/-! ### Merging twice -/

/-- A quorum set that does not change when it is merged. -/
theorem mergeQ_idem {m : ℕ → ℕ} (hm : ∀ x, m (m x) = m x) (q : QuorumSet) :
    mergeQ m (mergeQ m q) = mergeQ m q := by
  induction q using QuorumSet.induct with
  | h t vs qs ih =>
    rw [mergeQ_eq]
    have hinner : ∀ qs' : List QuorumSet,
        qs' = (qs.map (mergeQ m)).filter (fun q => !(q.validators.length == 1)) →
        qs'.map (mergeQ m) = qs' ∧ (∀ q ∈ qs', q.validators.length ≠ 1) := by
      rintro qs' rfl
      refine ⟨?_, fun q hq => by simpa using (List.mem_filter.1 hq).2⟩
      conv_rhs => rw [← List.map_id (List.filter _ _)]
      refine List.map_congr_left fun p hp => ?_
      obtain ⟨p0, hp0, rfl⟩ := List.mem_map.1 (List.mem_filter.1 hp).1
      exact ih p0 hp0
    have hfin : ∀ ws : List ℕ, ws.map m = ws → ∀ t', ∀ qs',
        (qs'.map (mergeQ m) = qs' ∧ ∀ q ∈ qs', q.validators.length ≠ 1) →
        mergeQ m ⟨t', ws, qs'⟩ = mergeFinish t' ws qs' ∧ collected ws qs' = ws ∧
          qs'.filter (fun q => !(q.validators.length == 1)) = qs' := by
      intro ws hws t' qs' ⟨h1, h2⟩
      refine ⟨by rw [mergeQ_eq, hws, h1], ?_, ?_⟩
      · unfold collected
        rw [List.filter_eq_nil_iff.2 (fun q hq => by simpa using h2 q hq)]
        simp
      · rw [List.filter_eq_self]
        intro q hq
        simpa using h2 q hq
    have hcol : ∀ w ∈ collected (vs.map m) (qs.map (mergeQ m)), m w = w := by
      intro w hw
      rcases mem_collected.1 hw with hw | ⟨q, hq, hqw⟩
      · obtain ⟨x, -, rfl⟩ := List.mem_map.1 hw
        exact hm x
      · obtain ⟨p, hp, rfl⟩ := List.mem_map.1 hq
        obtain ⟨x, -, rfl⟩ := mentions_mergeQ m p w (.validator (by rw [hqw]; simp))
        exact hm x
    rcases mergeFinish_eq t (vs.map m) (qs.map (mergeQ m)) with ⟨w, hw, -, he⟩ | ⟨hne, he⟩
    · rw [he]
      obtain ⟨h1, h2, h3⟩ := hfin [w] (by simp [hcol w hw]) 1 _ (hinner _ rfl)
      rw [h1]
      rcases mergeFinish_eq 1 [w] _ with ⟨w', hw', -, he'⟩ | ⟨hne', he'⟩
      · rw [he']
        rw [h2] at hw'
        simp only [List.mem_singleton] at hw'
        rw [hw', h3]
      · rw [h2] at hne'
        obtain ⟨x, hx, hxw⟩ := hne' w (by simp)
        simp at hx
        exact absurd hx hxw
    · rw [he]
      obtain ⟨h1, h2, h3⟩ := hfin (collected (vs.map m) (qs.map (mergeQ m)))
        (by conv_rhs => rw [← List.map_id (collected _ _)]
            exact List.map_congr_left hcol) t _ (hinner _ rfl)
      rw [h1]
      rcases mergeFinish_eq t (collected (vs.map m) (qs.map (mergeQ m))) _ with
        ⟨w', hw', hall, he'⟩ | ⟨hne', he'⟩
      · rw [h2] at hw' hall
        obtain ⟨x, hx, hxw⟩ := hne w' hw'
        exact absurd (hall x hx) hxw
      · rw [he', h2, h3]

end Groupings

/-! ### Pretty printing -/

theorem prettyLoop_succ (f : Fbas) (g : Option Groupings) (n : ℕ) (q : QuorumSet) :
    QuorumSet.prettyLoop f g (n + 1) q =
      match mergeOpt g q with
      | .error e => .error e
      | .ok q' =>
        match toNames q'.validators f g with
        | .error e => .error e
        | .ok names =>
          match mapE (QuorumSet.prettyLoop f g n) q'.inner with
          | .error e => .error e
          | .ok inner => .ok ⟨q'.threshold, names, inner⟩ := rfl

theorem toNames_ne_fuel (ids : List NodeId) (f : Fbas) (g : Option Groupings) :
    toNames ids f g ≠ .error .fuel := by
  unfold toNames
  cases g with
  | none =>
    refine Groupings.mapE_ne_fuel (fun x _ => ?_)
    split <;> (intro h; cases h)
  | some g =>
    refine Groupings.mapE_ne_fuel (fun x _ => ?_)
    unfold Groupings.getByMember
    cases g.nodeIdToOrgIdx.get? x with
    | none => dsimp only; split <;> (intro h; cases h)
    | some i =>
      dsimp only
      cases g.groupings[i]? <;> (intro h; cases h)

theorem prettyLoop_ne_fuel (f : Fbas) (g : Option Groupings) (n : ℕ) (q : QuorumSet)
    (h : q.height ≤ n) : QuorumSet.prettyLoop f g n q ≠ .error .fuel := by
  induction n generalizing q with
  | zero =>
    obtain ⟨t, vs, qs⟩ := q
    rw [QuorumSet.height_eq] at h
    omega
  | succ n ih =>
    rw [prettyLoop_succ]
    cases hm : mergeOpt g q with
    | error e =>
      dsimp only
      intro hc
      rw [Except.error.inj hc] at hm
      cases g with
      | none => cases hm
      | some g => exact g.merge_ne_fuel q hm
    | ok q' =>
      dsimp only
      have hh : q'.height ≤ q.height := by
        cases g with
        | none => rw [Except.ok.inj hm]
        | some g => exact Groupings.height_merge q hm
      have h1 := toNames_ne_fuel q'.validators f g
      have h2 : mapE (QuorumSet.prettyLoop f g n) q'.inner ≠ .error .fuel := by
        refine Groupings.mapE_ne_fuel fun p hp => ih p ?_
        obtain ⟨t, vs, qs⟩ := q'
        rw [QuorumSet.height_eq] at hh
        have := QuorumSet.height_le_of_mem hp
        dsimp only at this
        omega
      split
      next e he => rw [he] at h1; exact fun hc => h1 (by rw [Except.error.inj hc])
      · split
        next e he => rw [he] at h2; exact fun hc => h2 (by rw [Except.error.inj hc])
        · intro h; cases h

/-- Quorum sets that merging does not change are printed with their shape. -/
theorem prettyLoop_ok (f : Fbas) (g : Option Groupings) (shown : NodeId → String → Prop)
    (P : QuorumSet → Prop) (hP : ∀ q, P q → mergeOpt g q = .ok q)
    (hPi : ∀ q, P q → ∀ p ∈ q.inner, P p)
    (hn : ∀ q, P q → ∃ names, toNames q.validators f g = .ok names ∧
      List.Forall₂ shown q.validators names)
    (n : ℕ) (q : QuorumSet) (hq : P q) (h : q.height ≤ n) :
    ∃ p, QuorumSet.prettyLoop f g n q = .ok p ∧ ShowsQSet shown q p := by
  induction n generalizing q with
  | zero =>
    obtain ⟨t, vs, qs⟩ := q
    rw [QuorumSet.height_eq] at h
    omega
  | succ n ih =>
    rw [prettyLoop_succ, hP q hq]
    dsimp only
    obtain ⟨names, h1, h2⟩ := hn q hq
    rw [h1]
    dsimp only
    obtain ⟨t, vs, qs⟩ := q
    rw [QuorumSet.height_eq] at h
    have hi : ∀ p ∈ qs, ∃ r, QuorumSet.prettyLoop f g n p = .ok r ∧ ShowsQSet shown p r :=
      fun p hp => ih p (hPi _ hq p hp) (by have := QuorumSet.height_le_of_mem hp; omega)
    have hl : ∃ ps, mapE (QuorumSet.prettyLoop f g n) qs = .ok ps ∧
        List.Forall₂ (ShowsQSet shown) qs ps := by
      clear h h1 h2 hq
      induction qs with
      | nil => exact ⟨[], rfl, .nil⟩
      | cons p ps ihp =>
        obtain ⟨r, h1, h2⟩ := hi p List.mem_cons_self
        obtain ⟨rs, h3, h4⟩ := ihp fun p hp => hi p (List.mem_cons_of_mem _ hp)
        exact ⟨r :: rs, by rw [mapE, h1]; dsimp only; rw [h3], .cons h2 h4⟩
    obtain ⟨ps, h3, h4⟩ := hl
    rw [h3]
    rw [forall₂_index] at h4
    exact ⟨_, rfl, .intro h2 h4.1 h4.2⟩

theorem qsetJsonList_eq (qs : List QuorumSet) : QuorumSet.toJsonList qs = qs.map QuorumSet.toJson := by
  induction qs with
  | nil => rw [QuorumSet.toJsonList, List.map_nil]
  | cons q qs ih => rw [QuorumSet.toJsonList, List.map_cons, ih]

theorem listsQSet_toJson (q : QuorumSet) : ListsQSet q q.toJson := by
  induction q using QuorumSet.induct with
  | h t vs qs ih =>
    have h := ListsQSet.intro (t := t) (vs := vs) (qs := qs) (js := qs.map QuorumSet.toJson) (by simp)
      (fun i q j hq hj => by
        rw [List.getElem?_map, hq] at hj
        obtain rfl := Option.some.inj hj
        exact ih q (List.mem_of_getElem? hq))
    have e : (⟨t, vs, qs⟩ : QuorumSet).toJson = .obj (("threshold", .nat t) ::
        ((if vs = [] then [] else [("validators", .arr (vs.map .nat))]) ++
          (if qs.map QuorumSet.toJson = [] then [] else
            [("innerQuorumSets", .arr (qs.map QuorumSet.toJson))]))) := by
      rw [QuorumSet.toJson, qsetJsonList_eq]
      cases vs <;> cases qs <;> rfl
    rw [e]
    exact h

theorem listsQSet_unique {q : QuorumSet} {j : Json} (h : ListsQSet q j) : ∀ j', ListsQSet q j' → j' = j := by
  induction h with
  | @intro t vs qs js hlen _ ih =>
    intro j' h'
    cases h' with
    | @intro _ _ _ js' hlen' hin' =>
    have : js' = js := by
      refine List.ext_getElem? (fun i => ?_)
      by_cases hi : i < qs.length
      · have h1 : i < js.length := hlen ▸ hi
        have h2 : i < js'.length := hlen' ▸ hi
        rw [List.getElem?_eq_getElem h1, List.getElem?_eq_getElem h2,
          ih i _ _ (List.getElem?_eq_getElem hi) (List.getElem?_eq_getElem h1) _
            (hin' i _ _ (List.getElem?_eq_getElem hi) (List.getElem?_eq_getElem h2))]
      · rw [List.getElem?_eq_none (by omega), List.getElem?_eq_none (by omega)]
    rw [this]

/-- `ListsQSet` describes what `QuorumSet.toJson` computes. -/
theorem listsQSet_iff (q : QuorumSet) (j : Json) : ListsQSet q j ↔ j = q.toJson :=
  ⟨fun h => listsQSet_unique (listsQSet_toJson q) j h, fun h => h ▸ listsQSet_toJson q⟩

theorem forall₂_listsQSet (L : List QuorumSet) (js : List Json) :
    List.Forall₂ ListsQSet L js ↔ js = L.map QuorumSet.toJson := by
  induction L generalizing js with
  | nil => cases js with
    | nil => simp
    | cons j js => simp
  | cons q L ih => cases js with
    | nil => simp
    | cons j js => rw [List.forall₂_cons, listsQSet_iff, ih, List.map_cons, List.cons.injEq]

end FA
