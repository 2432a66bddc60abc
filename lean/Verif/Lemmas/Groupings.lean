import Verif.Lemmas.Results

/-!
# Proofs about groupings
-/

namespace FA
open Spec

namespace Groupings

/-- What the assignments of `Groupings::new` do to the merged ID of one node. -/
def tailRep (x : ℕ) : List Grouping → ℕ → ℕ
  | [], d => d
  | org :: orgs, d =>
    match org.validators with
    | [] => tailRep x orgs d
    | h :: vs => tailRep x orgs (if x ∈ vs then h else d)

/-- What the assignments of `Groupings::new` do to the group index of one node. -/
def lastIdx (x : ℕ) : ℕ → List Grouping → Option ℕ → Option ℕ
  | _, [], d => d
  | k, org :: orgs, d => lastIdx x (k + 1) orgs (if x ∈ org.validators then some k else d)

theorem newLoop_ok (mergedId orgIdx : ℕ) (vs : List ℕ) (m : List ℕ) (idx : Map ℕ ℕ)
    (h : ∀ v ∈ vs, v < m.length) :
    ∃ m' idx', newLoop mergedId orgIdx vs (m, idx) = .ok (m', idx') ∧ m'.length = m.length ∧
      (∀ x < m.length, m'[x]? = if x ∈ vs then some mergedId else m[x]?) ∧
      ∀ x, idx'.get? x = if x ∈ vs then some orgIdx else idx.get? x := by
  induction vs generalizing m idx with
  | nil => exact ⟨m, idx, rfl, rfl, by simp, by simp⟩
  | cons v vs ih =>
    have hv := h v List.mem_cons_self
    unfold newLoop
    rw [if_pos hv]
    obtain ⟨m', idx', h1, h2, h3, h4⟩ := ih (m.set v mergedId) (idx.insert v orgIdx)
      (fun w hw => by rw [List.length_set]; exact h w (List.mem_cons_of_mem _ hw))
    rw [List.length_set] at h2 h3
    refine ⟨m', idx', h1, h2, fun x hx => ?_, fun x => ?_⟩
    · rw [h3 x hx]
      by_cases hxv : x = v
      · subst hxv
        rw [List.getElem?_set_self hx]
        simp
      · rw [List.getElem?_set_ne (Ne.symm hxv)]
        simp [hxv]
    · rw [h4 x, Map.get?_insert]
      by_cases hxv : x = v
      · subst hxv; simp
      · simp [hxv]

theorem newLoop_error (mergedId orgIdx : ℕ) (vs : List ℕ) (m : List ℕ) (idx : Map ℕ ℕ)
    (h : ∃ v ∈ vs, m.length ≤ v) :
    newLoop mergedId orgIdx vs (m, idx) = .error .outOfBounds := by
  induction vs generalizing m idx with
  | nil => simp at h
  | cons v vs ih =>
    unfold newLoop
    split
    next hlt =>
      apply ih
      obtain ⟨w, hw, hl⟩ := h
      rw [List.length_set]
      rcases List.mem_cons.1 hw with e | hw
      · exact absurd hlt (by rw [← e]; exact Nat.not_lt.2 hl)
      · exact ⟨w, hw, hl⟩
    · rfl

theorem newGroups_ok (k : ℕ) (gs : List Grouping) (m : List ℕ) (idx : Map ℕ ℕ)
    (h : ∀ org ∈ gs, ∀ v ∈ org.validators.tail, v < m.length) :
    ∃ m' idx', newGroups k gs (m, idx) = .ok (m', idx') ∧ m'.length = m.length ∧
      (∀ x < m.length, m'[x]? = (m[x]?).map (tailRep x gs)) ∧
      ∀ x, idx'.get? x = lastIdx x k gs (idx.get? x) := by
  induction gs generalizing m idx k with
  | nil => exact ⟨m, idx, rfl, rfl, fun x hx => by simp [tailRep], fun x => rfl⟩
  | cons org gs ih =>
    have hgs : ∀ o ∈ gs, ∀ v ∈ o.validators.tail, v < m.length := fun o ho =>
      h o (List.mem_cons_of_mem _ ho)
    have horg := h org List.mem_cons_self
    unfold newGroups
    cases hv : org.validators with
    | nil =>
      dsimp only
      obtain ⟨m', idx', h1, h2, h3, h4⟩ := ih (k + 1) m idx hgs
      refine ⟨m', idx', h1, h2, fun x hx => ?_, fun x => ?_⟩
      · rw [h3 x hx]
        congr 1
        funext d
        rw [tailRep, hv]
      · rw [h4 x, lastIdx, hv]; simp
    | cons w vs =>
      rw [hv, List.tail_cons] at horg
      dsimp only
      obtain ⟨m1, idx1, h1, h2, h3, h4⟩ := newLoop_ok w k vs m (idx.insert w k) horg
      rw [h1]
      dsimp only
      obtain ⟨m', idx', h1', h2', h3', h4'⟩ := ih (k + 1) m1 idx1 (by rw [h2]; exact hgs)
      rw [h2] at h2' h3'
      refine ⟨m', idx', h1', h2', fun x hx => ?_, fun x => ?_⟩
      · rw [h3' x hx, h3 x hx, List.getElem?_eq_getElem hx]
        simp only [tailRep, hv]
        split <;> rfl
      · rw [h4' x, h4 x, lastIdx, hv, Map.get?_insert]
        congr 1
        by_cases h1 : x ∈ vs
        · simp [h1]
        · by_cases h2 : w = x
          · subst h2; simp
          · have : x ≠ w := Ne.symm h2
            simp [h1, this]

theorem newGroups_error (k : ℕ) (gs : List Grouping) (m : List ℕ) (idx : Map ℕ ℕ)
    (h : ∃ org ∈ gs, ∃ v ∈ org.validators.tail, m.length ≤ v) :
    newGroups k gs (m, idx) = .error .outOfBounds := by
  induction gs generalizing m idx k with
  | nil => simp at h
  | cons org gs ih =>
    unfold newGroups
    obtain ⟨o, ho, v, hvo, hl⟩ := h
    cases hv : org.validators with
    | nil =>
      dsimp only
      refine ih _ _ _ ⟨o, ?_, v, hvo, hl⟩
      rcases List.mem_cons.1 ho with e | ho
      · subst e; rw [hv] at hvo; simp at hvo
      · exact ho
    | cons w vs =>
      dsimp only
      by_cases hin : ∀ v ∈ vs, v < m.length
      · obtain ⟨m1, idx1, h1, h2, -⟩ := newLoop_ok w k vs m (idx.insert w k) hin
        rw [h1]
        dsimp only
        refine ih _ _ _ ⟨o, ?_, v, hvo, by rw [h2]; exact hl⟩
        rcases List.mem_cons.1 ho with e | ho
        · subst e; rw [hv, List.tail_cons] at hvo
          exact absurd (hin v hvo) (Nat.not_lt.2 hl)
        · exact ho
      · push Not at hin
        rw [newLoop_error w k vs m _ hin]

theorem tailRep_spec (x : ℕ) (gs : List Grouping) (d : ℕ) :
    (tailRep x gs d = d ∧ ∀ org ∈ gs, x ∉ org.validators.tail) ∨
      ∃ org ∈ gs, x ∈ org.validators.tail ∧ org.validators.head? = some (tailRep x gs d) := by
  induction gs generalizing d with
  | nil => exact .inl ⟨rfl, by simp⟩
  | cons org gs ih =>
    unfold tailRep
    cases hv : org.validators with
    | nil =>
      dsimp only
      rcases ih d with ⟨h1, h2⟩ | ⟨o, ho, h⟩
      · refine .inl ⟨h1, fun o ho => ?_⟩
        rcases List.mem_cons.1 ho with rfl | ho
        · rw [hv]; simp
        · exact h2 o ho
      · exact .inr ⟨o, List.mem_cons_of_mem _ ho, h⟩
    | cons w vs =>
      dsimp only
      rcases ih (if x ∈ vs then w else d) with ⟨h1, h2⟩ | ⟨o, ho, h⟩
      · by_cases hx : x ∈ vs
        · refine .inr ⟨org, List.mem_cons_self, by rw [hv]; exact hx, ?_⟩
          rw [h1, if_pos hx, hv]; rfl
        · rw [if_neg hx] at h1 ⊢
          refine .inl ⟨h1, fun o ho => ?_⟩
          rcases List.mem_cons.1 ho with rfl | ho
          · rw [hv]; exact hx
          · exact h2 o ho
      · exact .inr ⟨o, List.mem_cons_of_mem _ ho, h⟩

theorem lastIdx_spec (x k : ℕ) (gs : List Grouping) (d : Option ℕ) :
    (lastIdx x k gs d = d ∧ ∀ org ∈ gs, x ∉ org.validators) ∨
      ∃ i org, gs[i]? = some org ∧ x ∈ org.validators ∧ lastIdx x k gs d = some (k + i) ∧
        ∀ j org', i < j → gs[j]? = some org' → x ∉ org'.validators := by
  induction gs generalizing k d with
  | nil => exact .inl ⟨rfl, by simp⟩
  | cons org gs ih =>
    unfold lastIdx
    rcases ih (k + 1) (if x ∈ org.validators then some k else d) with ⟨h1, h2⟩ | ⟨i, o, hi, hx, h1, h2⟩
    · by_cases hx : x ∈ org.validators
      · refine .inr ⟨0, org, rfl, hx, by rw [h1, if_pos hx]; rfl, ?_⟩
        intro j o hj ho
        obtain ⟨j, rfl⟩ : ∃ j', j = j' + 1 := ⟨j - 1, by omega⟩
        rw [List.getElem?_cons_succ] at ho
        exact h2 o (List.mem_of_getElem? ho)
      · rw [if_neg hx] at h1 ⊢
        refine .inl ⟨h1, fun o ho => ?_⟩
        rcases List.mem_cons.1 ho with rfl | ho
        · exact hx
        · exact h2 o ho
    · refine .inr ⟨i + 1, o, by rw [List.getElem?_cons_succ]; exact hi, hx, ?_, ?_⟩
      · rw [h1]; congr 1; omega
      · intro j o' hj ho
        obtain ⟨j, rfl⟩ : ∃ j', j = j' + 1 := ⟨j - 1, by omega⟩
        rw [List.getElem?_cons_succ] at ho
        exact h2 j o' (by omega) ho

theorem new_ok {gs : List Grouping} {f : Fbas}
    (h : ∀ org ∈ gs, ∀ v ∈ org.validators.tail, v < f.nodes.length) :
    ∃ g, Groupings.new gs f = .ok g ∧ g.groupings = gs ∧ g.mergedIds.length = f.nodes.length ∧
      (∀ x < f.nodes.length, g.mergeNode x = .ok (tailRep x gs x)) ∧
      ∀ x, g.nodeIdToOrgIdx.get? x = lastIdx x 0 gs none := by
  obtain ⟨m, idx, h1, h2, h3, h4⟩ := newGroups_ok 0 gs (List.range f.nodes.length) []
    (by rw [List.length_range]; exact h)
  refine ⟨⟨gs, m, idx⟩, ?_, rfl, ?_, fun x hx => ?_, h4⟩
  · rw [Groupings.new, h1]
  · rw [List.length_range] at h2; exact h2
  · rw [List.length_range] at h3
    unfold mergeNode
    rw [h3 x hx, List.getElem?_range hx]
    rfl

theorem new_error {gs : List Grouping} {f : Fbas}
    (h : ∃ org ∈ gs, ∃ v ∈ org.validators.tail, f.nodes.length ≤ v) :
    Groupings.new gs f = .error .outOfBounds := by
  rw [Groupings.new, newGroups_error 0 gs _ _ (by rw [List.length_range]; exact h)]

theorem mergeNode_of_ge {g : Groupings} {x : ℕ} (h : g.mergedIds.length ≤ x) :
    g.mergeNode x = .error .outOfBounds := by
  unfold mergeNode
  rw [List.getElem?_eq_none h]

/-- Two groups that share a member have the same member list. -/
def Compatible (gs : List Grouping) : Prop :=
  ∀ a ∈ gs, ∀ b ∈ gs, ∀ x ∈ a.validators, x ∈ b.validators → a.validators = b.validators

/-- For compatible groups the merged ID of a node is the first member of its group. -/
theorem tailRep_of_mem {gs : List Grouping} (hc : Compatible gs) {org : Grouping} (ho : org ∈ gs)
    {x : ℕ} (hx : x ∈ org.validators) : org.validators.head? = some (tailRep x gs x) := by
  rcases tailRep_spec x gs x with ⟨h1, h2⟩ | ⟨o, ho', hx', hh⟩
  · rw [h1]
    have := h2 org ho
    cases hv : org.validators with
    | nil => rw [hv] at hx; simp at hx
    | cons w vs =>
      rw [hv] at hx this
      rcases List.mem_cons.1 hx with e | h
      · rw [e]; rfl
      · exact absurd h this
  · rw [hc org ho o ho' x hx (List.mem_of_mem_tail hx')]
    exact hh

theorem tailRep_of_not_mem {gs : List Grouping} {x : ℕ} (h : ∀ org ∈ gs, x ∉ org.validators) :
    tailRep x gs x = x := by
  rcases tailRep_spec x gs x with ⟨h1, -⟩ | ⟨o, ho', hx', -⟩
  · exact h1
  · exact absurd (List.mem_of_mem_tail hx') (h o ho')

theorem mem_of_head? {l : List ℕ} {x : ℕ} (h : l.head? = some x) : x ∈ l := by
  cases l with
  | nil => cases h
  | cons a l => rw [Option.some.inj h.symm]; exact List.mem_cons_self

theorem tailRep_eq_iff {gs : List Grouping} (hc : Compatible gs) {x y : ℕ} :
    tailRep x gs x = tailRep y gs y ↔
      x = y ∨ ∃ org ∈ gs, x ∈ org.validators ∧ y ∈ org.validators := by
  constructor
  · intro h
    by_cases hx : ∃ org ∈ gs, x ∈ org.validators
    · obtain ⟨a, ha, hxa⟩ := hx
      have h1 := tailRep_of_mem hc ha hxa
      by_cases hy : ∃ org ∈ gs, y ∈ org.validators
      · obtain ⟨b, hb, hyb⟩ := hy
        have h2 := tailRep_of_mem hc hb hyb
        rw [← h] at h2
        have := hc a ha b hb _ (mem_of_head? h1) (mem_of_head? h2)
        exact .inr ⟨a, ha, hxa, this ▸ hyb⟩
      · push Not at hy
        rw [tailRep_of_not_mem hy] at h
        rw [h] at h1
        exact absurd (mem_of_head? h1) (hy a ha)
    · push Not at hx
      rw [tailRep_of_not_mem hx] at h
      by_cases hy : ∃ org ∈ gs, y ∈ org.validators
      · obtain ⟨b, hb, hyb⟩ := hy
        have h2 := tailRep_of_mem hc hb hyb
        rw [← h] at h2
        exact absurd (mem_of_head? h2) (hx b hb)
      · push Not at hy
        rw [tailRep_of_not_mem hy] at h
        exact .inl h
  · rintro (rfl | ⟨org, ho, hx, hy⟩)
    · rfl
    · have h1 := tailRep_of_mem hc ho hx
      rw [tailRep_of_mem hc ho hy] at h1
      exact (Option.some.inj h1).symm

theorem tailRep_idem {gs : List Grouping} (hc : Compatible gs) (x : ℕ) :
    tailRep (tailRep x gs x) gs (tailRep x gs x) = tailRep x gs x := by
  rw [tailRep_eq_iff hc]
  by_cases hx : ∃ org ∈ gs, x ∈ org.validators
  · obtain ⟨a, ha, hxa⟩ := hx
    exact .inr ⟨a, ha, mem_of_head? (tailRep_of_mem hc ha hxa), hxa⟩
  · push Not at hx
    exact .inl (tailRep_of_not_mem hx)

theorem tailRep_lt {gs : List Grouping} {n : ℕ}
    (h : ∀ org ∈ gs, ∀ v ∈ org.validators, v < n) {x : ℕ} (hx : x < n) : tailRep x gs x < n := by
  rcases tailRep_spec x gs x with ⟨h1, -⟩ | ⟨o, ho, hx', hh⟩
  · rw [h1]; exact hx
  · exact h o ho _ (mem_of_head? hh)

theorem mergeNodeSet_ok {g : Groupings} {S : NodeSet} {m : ℕ → ℕ}
    (h : ∀ x ∈ S, g.mergeNode x = .ok (m x)) : g.mergeNodeSet S = .ok (S.image m) := by
  unfold mergeNodeSet
  rw [mapE_ok (fun x hx => h x (mem_elems.1 hx))]
  dsimp only
  congr 1
  ext x
  simp [ofList, mem_elems]

theorem mergeNodeSets_ok {g : Groupings} {l : List NodeSet} {m : ℕ → ℕ}
    (h : ∀ S ∈ l, ∀ x ∈ S, g.mergeNode x = .ok (m x)) :
    g.mergeNodeSets l = .ok (l.map (Finset.image m)) :=
  mapE_ok (fun S hS => mergeNodeSet_ok (h S hS))

end Groupings
end FA

namespace FA.Groupings

theorem tailRep_last (x : ℕ) (gs : List Grouping) (d : ℕ) :
    (tailRep x gs d = d ∧ ∀ org ∈ gs, x ∉ org.validators.tail) ∨
      ∃ (i : ℕ) (org : Grouping), gs[i]? = some org ∧ x ∈ org.validators.tail ∧
        org.validators.head? = some (tailRep x gs d) ∧
        ∀ (j : ℕ) (org' : Grouping), i < j → gs[j]? = some org' → x ∉ org'.validators.tail := by
  induction gs generalizing d with
  | nil => exact .inl ⟨rfl, by simp⟩
  | cons org gs ih =>
    have hstep : ∃ d', tailRep x (org :: gs) d = tailRep x gs d' ∧
        ((x ∈ org.validators.tail ∧ org.validators.head? = some d') ∨
          (x ∉ org.validators.tail ∧ d' = d)) := by
      cases hv : org.validators with
      | nil => exact ⟨d, by rw [tailRep]; simp only [hv], .inr ⟨by simp, rfl⟩⟩
      | cons w vs =>
        refine ⟨if x ∈ vs then w else d, by rw [tailRep]; simp only [hv], ?_⟩
        by_cases hx : x ∈ vs
        · exact .inl ⟨hx, by rw [if_pos hx]; rfl⟩
        · exact .inr ⟨hx, if_neg hx⟩
    obtain ⟨d', he, hd⟩ := hstep
    rw [he]
    rcases ih d' with ⟨h1, h2⟩ | ⟨i, o, hi, hx, hh, hl⟩
    · rcases hd with ⟨hx, hd⟩ | ⟨hx, hd⟩
      · refine .inr ⟨0, org, rfl, hx, by rw [h1]; exact hd, fun j o hj ho => ?_⟩
        obtain ⟨j, rfl⟩ : ∃ j', j = j' + 1 := ⟨j - 1, by omega⟩
        rw [List.getElem?_cons_succ] at ho
        exact h2 o (List.mem_of_getElem? ho)
      · refine .inl ⟨by rw [h1, hd], fun o ho => ?_⟩
        rcases List.mem_cons.1 ho with rfl | ho
        · exact hx
        · exact h2 o ho
    · refine .inr ⟨i + 1, o, by rw [List.getElem?_cons_succ]; exact hi, hx, hh, fun j o' hj ho => ?_⟩
      obtain ⟨j, rfl⟩ : ∃ j', j = j' + 1 := ⟨j - 1, by omega⟩
      rw [List.getElem?_cons_succ] at ho
      exact hl j o' (by omega) ho

end FA.Groupings
