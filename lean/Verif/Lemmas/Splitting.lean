import Verif.Lemmas.Canonical
import Verif.Model.Splitting

/-! Lemmas about the search for minimal splitting sets. -/

namespace FA
open Spec QuorumSet

/-! ### `is_slice_intersection` -/

theorem filterSliceIntersections_eq (S : NodeSet) (qs : List QuorumSet) :
    filterSliceIntersections S qs = qs.filter (isSliceIntersection S) := by
  induction qs with
  | nil => simp [filterSliceIntersections]
  | cons q qs ih => rw [filterSliceIntersections, ih, List.filter_cons]

theorem isSliceIntersection_iff_count (S : NodeSet) (q : QuorumSet) :
    isSliceIntersection S q = true ↔
      q.splittingThreshold ≤ (q.validators.filter (fun x => decide (x ∈ S))).length
        + (q.inner.filter (isSliceIntersection S)).length := by
  obtain ⟨t, vs, qs⟩ := q
  rw [isSliceIntersection, filterSliceIntersections_eq]
  dsimp only
  split
  next h => simp [h]
  next h =>
    rw [beq_iff_eq, List.length_take, List.length_take]
    omega

theorem splittingThreshold_eq (q : QuorumSet) :
    q.splittingThreshold = 2 * q.threshold - (q.validators.length + q.inner.length) := by
  unfold splittingThreshold; split <;> omega

theorem isSliceIntersection_mono {S T : NodeSet} (hST : S ⊆ T) {q : QuorumSet}
    (h : isSliceIntersection S q = true) : isSliceIntersection T q = true := by
  induction q using QuorumSet.induct with
  | h t vs qs ih =>
    rw [isSliceIntersection_iff_count] at h ⊢
    refine h.trans (Nat.add_le_add ?_ ?_)
    · refine (List.monotone_filter_right vs (fun x hx => ?_)).length_le
      simp only [decide_eq_true_eq] at hx ⊢
      exact hST hx
    · simp only
      have : qs.filter (isSliceIntersection S) = qs.filter
          (fun q => isSliceIntersection S q && isSliceIntersection T q) := by
        refine List.filter_congr (fun q hq => ?_)
        cases hs : isSliceIntersection S q with
        | false => simp
        | true => simp [ih q hq hs]
      rw [this]
      refine (List.monotone_filter_right qs (fun x hx => ?_)).length_le
      simp only [Bool.and_eq_true] at hx
      exact hx.2

/-- Inclusion-exclusion for filtered lists. -/
theorem filter_inter_length {α : Type} (l : List α) (p q : α → Bool) :
    (l.filter p).length + (l.filter q).length ≤
      l.length + (l.filter (fun a => p a && q a)).length := by
  induction l with
  | nil => simp
  | cons a l ih =>
    simp only [List.filter_cons, List.length_cons]
    cases p a <;> cases q a <;> simp <;> omega

/-- The intersection of two slices passes the check. -/
theorem isSliceIntersection_inter {P Q : NodeSet} {q : QuorumSet} (hP : Slice P q)
    (hQ : Slice Q q) : isSliceIntersection (P ∩ Q) q = true := by
  induction q using QuorumSet.induct with
  | h t vs qs ih =>
    rw [isSliceIntersection_iff_count, splittingThreshold_eq]
    rw [slice_iff_count] at hP hQ
    simp only at hP hQ ⊢
    have h1 := filter_inter_length vs (fun x => decide (x ∈ P)) (fun x => decide (x ∈ Q))
    have h2 := filter_inter_length qs (fun q' => decide (Slice P q')) (fun q' => decide (Slice Q q'))
    have h3 : vs.filter (fun x => decide (x ∈ P) && decide (x ∈ Q)) =
        vs.filter (fun x => decide (x ∈ P ∩ Q)) := by
      refine List.filter_congr (fun x _ => ?_)
      simp
    have h4 : (qs.filter (fun q' => decide (Slice P q') && decide (Slice Q q'))).length ≤
        (qs.filter (isSliceIntersection (P ∩ Q))).length := by
      have : qs.filter (fun q' => decide (Slice P q') && decide (Slice Q q')) = qs.filter
          (fun q' => (decide (Slice P q') && decide (Slice Q q')) &&
            isSliceIntersection (P ∩ Q) q') := by
        refine List.filter_congr (fun q' hq' => ?_)
        by_cases h5 : Slice P q' <;> by_cases h6 : Slice Q q' <;> simp [h5, h6]
        exact (ih q' hq' h5 h6)
      rw [this]
      refine (List.monotone_filter_right qs (fun x hx => ?_)).length_le
      rw [Bool.and_eq_true] at hx
      exact hx.2
    rw [h3] at h1
    have hP' : t ≤ (vs.filter (fun x => decide (x ∈ P))).length +
      (qs.filter (fun q' => decide (Slice P q'))).length := hP.2
    have hQ' : t ≤ (vs.filter (fun x => decide (x ∈ Q))).length +
      (qs.filter (fun q' => decide (Slice Q q'))).length := hQ.2
    have h1' : (vs.filter (fun x => decide (x ∈ P))).length +
      (vs.filter (fun x => decide (x ∈ Q))).length ≤
      vs.length + (vs.filter (fun x => decide (x ∈ P ∩ Q))).length := h1
    omega

theorem hasPotential_iff {f : Fbas} {sel av : NodeSet} :
    hasPotential f sel av = true ↔ ∀ x ∈ sel, (f.qset x).isSliceIntersection av = true := by
  simp [hasPotential]

theorem hasPotential_of_quorums {f : Fbas} {P Q sel av : NodeSet} (hP : IsQuorum f P)
    (hQ : IsQuorum f Q) (hsel : sel ⊆ P ∩ Q) (hav : P ∩ Q ⊆ av) :
    hasPotential f sel av = true := by
  rw [hasPotential_iff]
  intro x hx
  have hx' := Finset.mem_inter.1 (hsel hx)
  exact isSliceIntersection_mono hav (isSliceIntersection_inter ((isQuorum_iff.1 hP).2 x hx'.1)
    ((isQuorum_iff.1 hQ).2 x hx'.2))

/-! ### The search -/

/-- The sets the search looks for: non-empty intersections of two different sets in `M`. -/
def MeetOf (M : List NodeSet) (S : NodeSet) : Prop :=
  S.Nonempty ∧ ∃ P ∈ M, ∃ Q ∈ M, P ≠ Q ∧ P ∩ Q = S

theorem not_pairwise_exists {α : Type} {R : α → α → Prop} {l : List α} (h : ¬ l.Pairwise R)
    (hn : l.Nodup) : ∃ a ∈ l, ∃ b ∈ l, a ≠ b ∧ ¬ R a b := by
  induction l with
  | nil => simp at h
  | cons a l ih =>
    rw [List.nodup_cons] at hn
    rw [List.pairwise_cons, not_and_or] at h
    rcases h with h | h
    · push Not at h
      obtain ⟨b, hb, hab⟩ := h
      exact ⟨a, by simp, b, by simp [hb], fun e => hn.1 (e ▸ hb), hab⟩
    · obtain ⟨a', ha', b, hb, h1, h2⟩ := ih h hn.2
      exact ⟨a', by simp [ha'], b, by simp [hb], h1, h2⟩

/-- A heuristic that discards no intersection of two sets in `M`. -/
def Permits (pot : NodeSet → NodeSet → Bool) (M : List NodeSet) : Prop :=
  ∀ P ∈ M, ∀ Q ∈ M, ∀ sel av, sel ⊆ P ∩ Q → P ∩ Q ⊆ av → pot sel av = true

theorem hasPotential_permits {f : Fbas} {M : List NodeSet} (hMq : ∀ Q ∈ M, IsQuorum f Q) :
    Permits (hasPotential f) M :=
  fun P hP Q hQ _ _ => hasPotential_of_quorums (hMq P hP) (hMq Q hQ)

/-- `isQuorumIntersection` with an arbitrary heuristic. -/
def isQuorumIntersectionWith (pot : NodeSet → NodeSet → Bool) (selection : NodeSet)
    (parts : List NodeSet) : Bool :=
  !decide (selection = ∅) && pot selection selection && !allIntersect parts

/-- `msStep` with an arbitrary heuristic. -/
def msStepWith (pot : NodeSet → NodeSet → Bool) : ℕ → List NodeSet → Bool → MsState → MsState
  | 0, _, _, st => st
  | fuel + 1, parts, selectionChanged, st =>
    if parts.length < 2 then st
    else if selectionChanged && isQuorumIntersectionWith pot st.selection parts then
      { st with found := st.found ++ [st.selection] }
    else
      match st.unprocessed with
      | [] => st
      | x :: rest =>
        let st := { st with unprocessed := rest, selection := insert x st.selection }
        let partsWithSelect :=
          (parts.filter (fun q => decide (x ∈ q))).map (fun q => q.erase x)
        let st := msStepWith pot fuel partsWithSelect true st
        let st := { st with selection := st.selection.erase x, available := st.available.erase x }
        let partsForAvailable := parts.filter (fun (q : NodeSet) => !decide (Disjoint q st.available))
        let st :=
          if pot st.selection st.available
          then msStepWith pot fuel partsForAvailable false st else st
        { st with unprocessed := x :: st.unprocessed, available := insert x st.available }

theorem msStep_eq_with (f : Fbas) : msStep f = msStepWith (hasPotential f) := by
  funext fuel
  induction fuel with
  | zero => funext parts changed st; rw [msStep, msStepWith]
  | succ fuel ih =>
    funext parts changed st
    rw [msStep, msStepWith, ih]
    rfl

/-- `sel` is recognised iff it is the intersection of two of the relevant sets. -/
theorem isQuorumIntersection_iff {pot : NodeSet → NodeSet → Bool} {M' : List NodeSet} {sel : NodeSet}
    (hpot : Permits pot M') (hsub : ∀ Q ∈ M', sel ⊆ Q) (hnd : sel.Nonempty → M'.Nodup) :
    isQuorumIntersectionWith pot sel (M'.map (· \ sel)) = true ↔ MeetOf M' sel := by
  rw [isQuorumIntersectionWith, Bool.and_eq_true, Bool.and_eq_true, Bool.not_eq_true',
    Bool.not_eq_true', decide_eq_false_iff_not, ← ne_eq, ← Finset.nonempty_iff_ne_empty]
  have hdis : ∀ P ∈ M', ∀ Q ∈ M', ((¬ ∃ x, x ∈ P \ sel ∧ x ∈ Q \ sel) ↔ P ∩ Q = sel) := by
    intro P hP Q hQ
    constructor
    · intro h
      refine Finset.Subset.antisymm (fun x hx => ?_) (Finset.subset_inter (hsub P hP) (hsub Q hQ))
      rw [Finset.mem_inter] at hx
      by_contra hxs
      exact h ⟨x, Finset.mem_sdiff.2 ⟨hx.1, hxs⟩, Finset.mem_sdiff.2 ⟨hx.2, hxs⟩⟩
    · rintro h ⟨x, hx1, hx2⟩
      rw [Finset.mem_sdiff] at hx1 hx2
      exact hx1.2 (h ▸ Finset.mem_inter.2 ⟨hx1.1, hx2.1⟩)
  constructor
  · rintro ⟨⟨hne, _⟩, h⟩
    refine ⟨hne, ?_⟩
    have h' : ¬ (M'.map (· \ sel)).Pairwise (fun a b => ∃ x, x ∈ a ∧ x ∈ b) := by
      rw [← allIntersect_iff, h]; simp
    rw [List.pairwise_map] at h'
    obtain ⟨P, hP, Q, hQ, hPQ, hx⟩ := not_pairwise_exists h' (hnd hne)
    exact ⟨P, hP, Q, hQ, hPQ, (hdis P hP Q hQ).1 hx⟩
  · rintro ⟨hne, P, hP, Q, hQ, hPQ, he⟩
    refine ⟨⟨hne, hpot P hP Q hQ _ _ he.ge he.le⟩, ?_⟩
    rw [← Bool.not_eq_true, allIntersect_iff, List.pairwise_map]
    intro hpw
    have hsymm : ∀ {P Q : NodeSet}, (∃ x, x ∈ P \ sel ∧ x ∈ Q \ sel) →
        ∃ x, x ∈ Q \ sel ∧ x ∈ P \ sel := fun ⟨x, h1, h2⟩ => ⟨x, h2, h1⟩
    have : Std.Symm (fun P Q : NodeSet => ∃ x, x ∈ P \ sel ∧ x ∈ Q \ sel) :=
      ⟨fun _ _ h => hsymm h⟩
    have := hpw.forall hP hQ hPQ
    exact (hdis P hP Q hQ).2 he this

theorem two_le_length {α : Type} {l : List α} {a b : α} (ha : a ∈ l) (hb : b ∈ l) (h : a ≠ b) :
    2 ≤ l.length := by
  match l, ha, hb with
  | [c], ha, hb => simp at ha hb; exact absurd (ha.trans hb.symm) h
  | _ :: _ :: _, _, _ => simp

theorem msStep_spec {pot : NodeSet → NodeSet → Bool} (K : NodeSet) (M : List NodeSet)
    (hpotM : Permits pot M)
    (hMnd : ∀ x ∈ K, (M.filter (fun Q => decide (x ∈ Q))).Nodup)
    (fuel : ℕ) (M' : List NodeSet) (changed : Bool) (st : MsState)
    (hfuel : st.unprocessed.length < fuel) (hnd : st.unprocessed.Nodup)
    (hdis : ∀ x ∈ st.unprocessed, x ∉ st.selection)
    (hselK : st.selection ⊆ K) (hunK : ∀ x ∈ st.unprocessed, x ∈ K)
    (hav : st.available = st.selection ∪ st.unprocessed.toFinset)
    (hM' : M'.Sublist M) (hMsel : ∀ Q ∈ M', st.selection ⊆ Q)
    (hrel : ∀ Q ∈ M, st.selection ⊆ Q → (changed = true ∨ ∃ x ∈ st.unprocessed, x ∈ Q) → Q ∈ M') :
    ∃ L : List NodeSet,
      msStepWith pot fuel (M'.map (· \ st.selection)) changed st = { st with found := st.found ++ L } ∧
      (∀ S ∈ L, MeetOf M S ∧ S ⊆ K) ∧
      ∀ S, Minimal (fun S => MeetOf M S ∧ S ⊆ K) S → st.selection ⊆ S → S ⊆ st.available →
        (S = st.selection → changed = true) → S ∈ L := by
  induction fuel generalizing M' changed st with
  | zero => omega
  | succ fuel ih =>
    obtain ⟨un, sel, av, found⟩ := st
    simp only at hfuel hnd hdis hselK hunK hav hMsel hrel ⊢
    subst hav
    have hM'nd : sel.Nonempty → M'.Nodup := by
      rintro ⟨x, hx⟩
      have h1 : M'.filter (fun Q => decide (x ∈ Q)) = M' :=
        List.filter_eq_self.2 (fun Q hQ => by simpa using hMsel Q hQ hx)
      rw [← h1]
      exact (hMnd x (hselK hx)).sublist (hM'.filter _)
    have hM'q : Permits pot M' :=
      fun P hP Q hQ => hpotM P (hM'.subset hP) Q (hM'.subset hQ)
    have hmono : ∀ S, MeetOf M' S → MeetOf M S := by
      rintro S ⟨h0, P, hP, Q, hQ, h⟩
      exact ⟨h0, P, hM'.subset hP, Q, hM'.subset hQ, h⟩
    -- the two sets whose intersection is looked for are still relevant
    have hwit : ∀ S, MeetOf M S → sel ⊆ S → S ⊆ sel ∪ un.toFinset → (S = sel → changed = true) →
        ∃ P ∈ M', ∃ Q ∈ M', P ≠ Q ∧ P ∩ Q = S := by
      rintro S ⟨hne, P, hP, Q, hQ, hPQ, rfl⟩ h1 h2 h3
      have hor : changed = true ∨ ∃ x ∈ un, x ∈ P ∩ Q := by
        by_cases he : P ∩ Q = sel
        · exact .inl (h3 he)
        · obtain ⟨x, hx, hxs⟩ := Finset.exists_of_ssubset (h1.ssubset_of_ne (Ne.symm he))
          refine .inr ⟨x, ?_, hx⟩
          have := h2 hx
          simpa [hxs] using this
      refine ⟨P, hrel P hP (h1.trans Finset.inter_subset_left) ?_,
        Q, hrel Q hQ (h1.trans Finset.inter_subset_right) ?_, hPQ, rfl⟩
      · exact hor.imp_right (fun ⟨x, hx, hx'⟩ => ⟨x, hx, (Finset.mem_inter.1 hx').1⟩)
      · exact hor.imp_right (fun ⟨x, hx, hx'⟩ => ⟨x, hx, (Finset.mem_inter.1 hx').2⟩)
    rw [msStepWith]
    split
    next hlen =>
      refine ⟨[], by simp, by simp, fun S hS h1 h2 h3 => ?_⟩
      obtain ⟨P, hP, Q, hQ, hPQ, _⟩ := hwit S hS.prop.1 h1 h2 h3
      have := two_le_length hP hQ hPQ
      rw [List.length_map] at hlen
      omega
    next hlen =>
      split
      next h =>
        rw [Bool.and_eq_true, isQuorumIntersection_iff hM'q hMsel hM'nd] at h
        refine ⟨[sel], rfl, by simpa using ⟨hmono _ h.2, hselK⟩, fun S hS h1 h2 h3 => ?_⟩
        rw [List.mem_singleton]
        exact ((minimal_iff.1 hS).2 ⟨hmono _ h.2, hselK⟩ h1)
      next h =>
        -- `sel` itself is not what is looked for
        have hnsel : ∀ S, MeetOf M S → sel ⊆ S → S ⊆ sel ∪ un.toFinset →
            (S = sel → changed = true) → S ≠ sel := by
          rintro S hS h1 h2 h3 rfl
          obtain ⟨P, hP, Q, hQ, hPQ⟩ := hwit _ hS h1 h2 h3
          apply h
          rw [Bool.and_eq_true, isQuorumIntersection_iff hM'q hMsel hM'nd]
          exact ⟨h3 rfl, hS.1, P, hP, Q, hQ, hPQ⟩
        cases un with
        | nil =>
          refine ⟨[], by simp, by simp, fun S hS h1 h2 h3 => ?_⟩
          refine absurd ?_ (hnsel S hS.prop.1 h1 h2 h3)
          simp only [List.toFinset_nil, Finset.union_empty] at h2
          exact Finset.Subset.antisymm h2 h1
        | cons x rest =>
          rw [List.nodup_cons] at hnd
          have hxsel : x ∉ sel := hdis x (by simp)
          have hxK : x ∈ K := hunK x (by simp)
          have hU : sel ∪ (x :: rest).toFinset = insert x (sel ∪ rest.toFinset) := by simp
          have hxr : x ∉ sel ∪ rest.toFinset := by
            simp only [Finset.mem_union, List.mem_toFinset, not_or]; exact ⟨hxsel, hnd.1⟩
          rw [hU] at hnsel ⊢
          -- first call: `x` is selected
          have hparts1 : ((M'.map (· \ sel)).filter (fun q => decide (x ∈ q))).map
              (fun q => q.erase x) = (M'.filter (fun Q => decide (x ∈ Q))).map
                (· \ insert x sel) := by
            rw [List.filter_map, List.map_map]
            have e1 : (fun q : NodeSet => decide (x ∈ q)) ∘ (· \ sel) =
                fun Q => decide (x ∈ Q) := by
              funext Q; simp [hxsel]
            rw [e1]
            refine List.map_congr_left (fun Q _ => ?_)
            ext y; simp only [Function.comp_apply, Finset.mem_erase, Finset.mem_sdiff,
              Finset.mem_insert]; tauto
          obtain ⟨L₁, h1, hs1, hc1⟩ := ih (M'.filter (fun Q => decide (x ∈ Q))) true
            ⟨rest, insert x sel, insert x (sel ∪ rest.toFinset), found⟩
            (by simpa using hfuel) hnd.2
            (by
              intro y hy
              simp only [Finset.mem_insert, not_or]
              exact ⟨fun h => hnd.1 (h ▸ hy), hdis y (by simp [hy])⟩)
            (Finset.insert_subset hxK hselK) (fun y hy => hunK y (by simp [hy]))
            (by rw [Finset.insert_union]) (List.filter_sublist.trans hM')
            (by
              intro Q hQ
              rw [List.mem_filter] at hQ
              exact Finset.insert_subset (by simpa using hQ.2) (hMsel Q hQ.1))
            (by
              intro Q hQ hsub _
              rw [List.mem_filter]
              refine ⟨hrel Q hQ ((Finset.subset_insert _ _).trans hsub)
                (.inr ⟨x, by simp, hsub (by simp)⟩), ?_⟩
              simpa using hsub (Finset.mem_insert_self x sel))
          dsimp only at h1 hc1 ⊢
          rw [hparts1, h1]
          dsimp only
          have hsel : (insert x sel).erase x = sel := Finset.erase_insert hxsel
          have hav1 : (insert x (sel ∪ rest.toFinset)).erase x = sel ∪ rest.toFinset :=
            Finset.erase_insert hxr
          rw [hsel, hav1]
          -- second call: `x` is not selected
          have hparts2 : (M'.map (· \ sel)).filter
              (fun q => !decide (Disjoint q (sel ∪ rest.toFinset))) =
              (M'.filter (fun Q => !decide (Disjoint (Q \ sel) (sel ∪ rest.toFinset)))).map
                (· \ sel) := by
            rw [List.filter_map]; rfl
          rw [hparts2]
          have hwithout : ∀ S, S ≠ sel → Minimal (fun S => MeetOf M S ∧ S ⊆ K) S → sel ⊆ S → x ∉ S →
              S ⊆ insert x (sel ∪ rest.toFinset) → S ⊆ sel ∪ rest.toFinset :=
            fun S _ _ _ hx hsub => (Finset.subset_insert_iff_of_notMem hx).1 hsub
          have hwith : ∀ S, Minimal (fun S => MeetOf M S ∧ S ⊆ K) S → sel ⊆ S → x ∈ S →
              S ⊆ insert x (sel ∪ rest.toFinset) → S ∈ L₁ :=
            fun S hS hsub hx hsub' => hc1 S hS (Finset.insert_subset hx hsub) hsub' (fun _ => rfl)
          split
          next hpot =>
            obtain ⟨L₂, h2, hs2, hc2⟩ := ih
              (M'.filter (fun Q => !decide (Disjoint (Q \ sel) (sel ∪ rest.toFinset)))) false
              ⟨rest, sel, sel ∪ rest.toFinset, found ++ L₁⟩
              (by simpa using hfuel) hnd.2 (fun y hy => hdis y (by simp [hy])) hselK
              (fun y hy => hunK y (by simp [hy])) rfl (List.filter_sublist.trans hM')
              (fun Q hQ => hMsel Q (List.mem_filter.1 hQ).1)
              (by
                rintro Q hQ hsub (h | ⟨y, hy, hyQ⟩)
                · simp at h
                · rw [List.mem_filter]
                  refine ⟨hrel Q hQ hsub (.inr ⟨y, by simp [hy], hyQ⟩), ?_⟩
                  simp only [Bool.not_eq_true', decide_eq_false_iff_not, Finset.not_disjoint_iff]
                  refine ⟨y, Finset.mem_sdiff.2 ⟨hyQ, hdis y (by simp [hy])⟩, ?_⟩
                  simp only at hy
                  simp [hy])
            dsimp only at h2 hc2 ⊢
            rw [h2]
            refine ⟨L₁ ++ L₂, by simp, ?_, fun S hS ha hb hc => ?_⟩
            · intro S hS
              exact (List.mem_append.1 hS).elim (hs1 S) (hs2 S)
            · have hne := hnsel S hS.prop.1 ha hb hc
              rw [List.mem_append]
              by_cases hxS : x ∈ S
              · exact .inl (hwith S hS ha hxS hb)
              · exact .inr (hc2 S hS ha (hwithout S hne hS ha hxS hb) (fun h => absurd h hne))
          next hpot =>
            refine ⟨L₁, by simp, hs1, fun S hS ha hb hc => ?_⟩
            have hne := hnsel S hS.prop.1 ha hb hc
            by_cases hxS : x ∈ S
            · exact hwith S hS ha hxS hb
            · exfalso
              apply hpot
              obtain ⟨⟨_, P, hP, Q, hQ, _, rfl⟩, _⟩ := hS.prop
              exact hpotM P hP Q hQ _ _ ha (hwithout _ hne hS ha hxS hb)

/-- Starting the search on all nodes of a set `K`. -/
theorem msStepWith_start {pot : NodeSet → NodeSet → Bool} (M : List NodeSet) (hpot : Permits pot M)
    (l : List ℕ) (hl : l.Nodup)
    (hMnd : ∀ x ∈ l.toFinset, (M.filter (fun Q => decide (x ∈ Q))).Nodup) (S : NodeSet) :
    S ∈ removeNonMinimalNodeSets (msStepWith pot (l.length + 1) M true ⟨l, ∅, ofList l, []⟩).found ↔
      Minimal (fun S => MeetOf M S ∧ S ⊆ l.toFinset) S := by
  obtain ⟨L, h1, h2, h3⟩ := msStep_spec l.toFinset M hpot hMnd (l.length + 1) M true
    ⟨l, ∅, ofList l, []⟩ (by simp) hl (by simp) (by simp) (by simp) (by simp) (List.Sublist.refl _)
    (by simp) (fun Q hQ _ _ => hQ)
  have hmap : M.map (· \ (∅ : NodeSet)) = M := by simp
  dsimp only at h1 h3
  rw [hmap] at h1
  rw [h1, List.nil_append, (removeNonMinimal_spec L).1]
  constructor
  · intro hS
    refine ⟨h2 S hS.prop, fun T hT hTS => ?_⟩
    obtain ⟨T', hT'T, hT'⟩ := exists_minimal_le_of_wellFoundedLT
      (fun S => MeetOf M S ∧ S ⊆ l.toFinset) T hT
    have := h3 T' hT' (by simp) (by simpa using hT'.prop.2) (fun _ => rfl)
    exact (hS.le_of_le this (hT'T.trans hTS)).trans hT'T
  · intro hS
    exact ⟨h3 S hS (by simp) (by simpa using hS.prop.2) (fun _ => rfl),
      fun T hT hTS => hS.le_of_le (h2 T hT) hTS⟩

theorem msStep_start (f : Fbas) (M : List NodeSet) (hMq : ∀ Q ∈ M, IsQuorum f Q) (l : List ℕ)
    (hl : l.Nodup) (hMnd : ∀ x ∈ l.toFinset, (M.filter (fun Q => decide (x ∈ Q))).Nodup)
    (S : NodeSet) :
    S ∈ removeNonMinimalNodeSets (msStep f (l.length + 1) M true ⟨l, ∅, ofList l, []⟩).found ↔
      Minimal (fun S => MeetOf M S ∧ S ⊆ l.toFinset) S := by
  rw [msStep_eq_with]
  exact msStepWith_start M (hasPotential_permits hMq) l hl hMnd S

/-! ### `to_splitting_sets` -/

theorem toSplittingSetsList_eq (qs : List QuorumSet) :
    toSplittingSetsList qs = qs.map toSplittingSets := by
  induction qs with
  | nil => simp [toSplittingSetsList]
  | cons q qs ih => rw [toSplittingSetsList, ih, List.map_cons]

/-- The sets before the one-quorum check. -/
def potentialSplittingSets (q : QuorumSet) : List NodeSet :=
  combineGroups q.splittingThreshold
    (q.validators.map (fun v => [({v} : NodeSet)]) ++ q.inner.map toSplittingSets)

theorem toSplittingSets_eq (q : QuorumSet) :
    q.toSplittingSets = q.dropIfOneQuorum (potentialSplittingSets q) := by
  obtain ⟨t, vs, qs⟩ := q
  rw [toSplittingSets, toSplittingSetsList_eq, potentialSplittingSets]

theorem comb'_ne_nil {gs : List (List NodeSet)} (h : ∀ g ∈ gs, g ≠ []) {k : ℕ}
    (hk : k ≤ gs.length) : comb' k gs ≠ [] := by
  induction gs generalizing k with
  | nil => simp at hk; subst hk; simp [comb']
  | cons g gs ih =>
    cases k with
    | zero => simp [comb']
    | succ k =>
      obtain ⟨s, hs⟩ := List.exists_mem_of_ne_nil _ (h g (by simp))
      obtain ⟨T, hT⟩ := List.exists_mem_of_ne_nil _
        (ih (fun g hg => h g (by simp [hg])) (k := k) (by simpa using hk))
      rw [comb', ne_eq, List.append_eq_nil_iff]
      intro he
      have : s ∪ T ∈ g.flatMap (fun s => (comb' k gs).map (s ∪ ·)) :=
        List.mem_flatMap.2 ⟨s, hs, List.mem_map.2 ⟨T, hT, rfl⟩⟩
      rw [he.1] at this
      simp at this

theorem comb'_le_length {gs : List (List NodeSet)} {k : ℕ} {T : NodeSet} (hT : T ∈ comb' k gs) :
    k ≤ gs.length := by
  induction gs generalizing k T with
  | nil => cases k <;> simp [comb'] at hT ⊢
  | cons g gs ih =>
    cases k with
    | zero => simp
    | succ k =>
      simp only [comb', List.mem_append, List.mem_flatMap, List.mem_map] at hT
      rcases hT with ⟨_, _, _, hT', _⟩ | hT
      · simpa using ih hT'
      · exact (ih hT).trans (by simp)

/-- Every member of `d` is the intersection of two members of `g`. -/
def Meets (g d : List NodeSet) : Prop := ∀ s ∈ d, ∃ p ∈ g, ∃ p' ∈ g, p ∩ p' = s

/-- ... of two different members. -/
def MeetsStrict (g d : List NodeSet) : Prop := ∀ s ∈ d, ∃ p ∈ g, ∃ p' ∈ g, p ∩ p' = s ∧ p ≠ p'

/-- Two disjoint parts of unions with the same boundaries. -/
theorem union_inter_union {U p p' P P' : NodeSet} (hp : p ⊆ U) (hp' : p' ⊆ U) (hP : Disjoint U P)
    (hP' : Disjoint U P') : (p ∪ P) ∩ (p' ∪ P') = (p ∩ p') ∪ (P ∩ P') := by
  ext x
  have h1 : x ∈ U → x ∉ P := fun h => Finset.disjoint_left.1 hP h
  have h2 : x ∈ U → x ∉ P' := fun h => Finset.disjoint_left.1 hP' h
  have h3 := @hp x
  have h4 := @hp' x
  simp only [Finset.mem_inter, Finset.mem_union]
  tauto

theorem comb'_meets {gs ds : List (List NodeSet)} {Us : List NodeSet}
    (hg : List.Forall₂ GoodGroup gs Us) (hd : Us.Pairwise Disjoint)
    (hne : ∀ g ∈ gs, g ≠ []) (hm : List.Forall₂ Meets gs ds) {k a b : ℕ} {T : NodeSet}
    (hT : T ∈ comb' k ds) (hk : k + a + b ≤ ds.length) :
    ∃ P ∈ comb' (k + a) gs, ∃ Q ∈ comb' (k + b) gs, P ∩ Q = T ∧
      ((1 ≤ a + b ∨ (k = ds.length ∧ ∃ p ∈ gs.zip ds, MeetsStrict p.1 p.2)) → P ≠ Q) := by
  induction hm generalizing Us k a b T with
  | nil =>
    simp only [List.length_nil] at hk
    obtain ⟨rfl, rfl, rfl⟩ : k = 0 ∧ a = 0 ∧ b = 0 := by omega
    simp only [comb', List.mem_singleton] at hT ⊢
    subst hT
    simp
  | @cons g d gs ds hgd hrest ih =>
    cases hg with
    | @cons _ U _ Us hgU hgUs =>
      rw [List.pairwise_cons] at hd
      have hdU : ∀ {k : ℕ} {T : NodeSet}, T ∈ comb' k gs → Disjoint U T := by
        intro k T hT
        refine Finset.disjoint_of_subset_right (comb'_subset hgUs hT) ?_
        rw [Finset.disjoint_left]
        intro x hx hx'
        obtain ⟨V, hV, hxV⟩ := mem_unionAll.1 hx'
        exact Finset.disjoint_left.1 (hd.1 V hV) hx hxV
      have ih' := @ih Us hgUs hd.2 (fun g hg => hne g (by simp [hg]))
      have hskip : ∀ {k : ℕ} {P : NodeSet}, P ∈ comb' k gs → P ∈ comb' k (g :: gs) := by
        intro k P hP
        cases k with
        | zero =>
          have : P = ∅ := by cases gs <;> simpa [comb'] using hP
          simp [comb', this]
        | succ k => rw [comb', List.mem_append]; exact .inr hP
      have htake : ∀ {k : ℕ} {p P : NodeSet}, p ∈ g → P ∈ comb' k gs →
          p ∪ P ∈ comb' (k + 1) (g :: gs) := by
        intro k p P hp hP
        rw [comb', List.mem_append]
        exact .inl (List.mem_flatMap.2 ⟨p, hp, List.mem_map.2 ⟨P, hP, rfl⟩⟩)
      -- a set that uses the first group differs from one that does not
      have hdiff : ∀ {k : ℕ} {p P Q : NodeSet}, p ∈ g → Q ∈ comb' k gs → p ∪ P ≠ Q := by
        rintro k p P Q hp hQ rfl
        obtain ⟨x, hx⟩ := hgU.nonempty p hp
        exact Finset.disjoint_left.1 (hdU hQ) (hgU.sub p hp hx) (Finset.mem_union_left _ hx)
      -- case: the first group is not used by `T`
      have hcaseB : T ∈ comb' k ds → ∃ P ∈ comb' (k + a) (g :: gs), ∃ Q ∈ comb' (k + b) (g :: gs),
          P ∩ Q = T ∧ ((1 ≤ a + b ∨ (k = (d :: ds).length ∧
            ∃ p ∈ (g :: gs).zip (d :: ds), MeetsStrict p.1 p.2)) → P ≠ Q) := by
        intro hT'
        have hkl := comb'_le_length hT'
        obtain ⟨p, hp⟩ := List.exists_mem_of_ne_nil _ (hne g (by simp))
        rw [List.length_cons] at hk
        rcases Nat.eq_zero_or_pos a with ha | ha
        · rcases Nat.eq_zero_or_pos b with hb | hb
          · subst ha hb
            obtain ⟨P, hP, Q, hQ, h1, h2⟩ := ih' (a := 0) (b := 0) hT' (by omega)
            refine ⟨P, hskip hP, Q, hskip hQ, h1, ?_⟩
            rintro (h | ⟨h, _⟩)
            · omega
            · simp at h; omega
          · obtain ⟨b, rfl⟩ : ∃ b', b = b' + 1 := ⟨b - 1, by omega⟩
            obtain ⟨P, hP, Q, hQ, h1, h2⟩ := ih' (a := a) (b := b) hT' (by omega)
            refine ⟨P, hskip hP, p ∪ Q, htake hp hQ, ?_, fun _ => (hdiff hp hP).symm⟩
            have := union_inter_union (p := ∅) (by simp) (hgU.sub p hp) (hdU hP) (hdU hQ)
            simpa [h1] using this
        · obtain ⟨a, rfl⟩ : ∃ a', a = a' + 1 := ⟨a - 1, by omega⟩
          obtain ⟨P, hP, Q, hQ, h1, h2⟩ := ih' (a := a) (b := b) hT' (by omega)
          refine ⟨p ∪ P, htake hp hP, Q, hskip hQ, ?_, fun _ => hdiff hp hQ⟩
          have := union_inter_union (p' := ∅) (hgU.sub p hp) (by simp) (hdU hP) (hdU hQ)
          simpa [h1] using this
      cases k with
      | zero =>
        refine hcaseB ?_
        simp only [comb', List.mem_singleton] at hT
        cases ds <;> simp [comb', hT]
      | succ k =>
        rw [comb', List.mem_append] at hT
        rcases hT with hT | hT
        · simp only [List.mem_flatMap, List.mem_map] at hT
          obtain ⟨s, hs, T', hT', rfl⟩ := hT
          rw [List.length_cons] at hk
          obtain ⟨P, hP, Q, hQ, h1, h2⟩ := ih' (a := a) (b := b) hT' (by omega)
          obtain ⟨p, hp, p', hp', hpp, hstrict⟩ : ∃ p ∈ g, ∃ p' ∈ g, p ∩ p' = s ∧
              (MeetsStrict g d → p ≠ p') := by
            by_cases h : MeetsStrict g d
            · obtain ⟨p, hp, p', hp', h3, h4⟩ := h s hs
              exact ⟨p, hp, p', hp', h3, fun _ => h4⟩
            · obtain ⟨p, hp, p', hp', h3⟩ := hgd s hs
              exact ⟨p, hp, p', hp', h3, fun h' => absurd h' h⟩
          have hPm : p ∪ P ∈ comb' (k + 1 + a) (g :: gs) := by
            rw [Nat.add_right_comm]; exact htake hp hP
          have hQm : p' ∪ Q ∈ comb' (k + 1 + b) (g :: gs) := by
            rw [Nat.add_right_comm]; exact htake hp' hQ
          have hint := union_inter_union (hgU.sub p hp) (hgU.sub p' hp') (hdU hP) (hdU hQ)
          refine ⟨_, hPm, _, hQm, by rw [hint, hpp, h1], ?_⟩
          intro hor heq
          have hpeq : p = p' := by
            ext x
            have h5 := Finset.ext_iff.1 heq x
            simp only [Finset.mem_union] at h5
            constructor
            · intro hx
              exact (h5.1 (.inl hx)).resolve_right (Finset.disjoint_left.1 (hdU hQ) (hgU.sub p hp hx))
            · intro hx
              exact (h5.2 (.inl hx)).resolve_right
                (Finset.disjoint_left.1 (hdU hP) (hgU.sub p' hp' hx))
          have hPeq : P = Q := by
            ext x
            have h5 := Finset.ext_iff.1 heq x
            simp only [Finset.mem_union] at h5
            constructor
            · intro hx
              exact (h5.1 (.inr hx)).resolve_left
                (fun h => Finset.disjoint_left.1 (hdU hP) (hgU.sub p' hp' h) hx)
            · intro hx
              exact (h5.2 (.inr hx)).resolve_left
                (fun h => Finset.disjoint_left.1 (hdU hQ) (hgU.sub p hp h) hx)
          rcases hor with hab | ⟨hlen, pr, hpr, hms⟩
          · exact h2 (.inl hab) hPeq
          · rw [List.zip_cons_cons, List.mem_cons] at hpr
            rcases hpr with rfl | hpr
            · exact hstrict hms hpeq
            · exact h2 (.inr ⟨by simpa using hlen, pr, hpr, hms⟩) hPeq
        · exact hcaseB hT

/-- What the recursion establishes. -/
structure SplitOk (q : QuorumSet) : Prop where
  good : GoodGroup q.toSplittingSets q.containedNodes
  ne_nil : q.toSplittingSets ≠ []
  strict : MeetsStrict q.toQuorumSlices q.toSplittingSets
  complete : ∀ P Q, Slice P q → Slice Q q → ∃ T ∈ q.toSplittingSets, T ⊆ P ∩ Q

theorem SplitOk.slices_ne_nil {q : QuorumSet} (h : SplitOk q) : q.toQuorumSlices ≠ [] := by
  obtain ⟨s, hs⟩ := List.exists_mem_of_ne_nil _ h.ne_nil
  obtain ⟨p, hp, _⟩ := h.strict s hs
  exact List.ne_nil_of_mem hp

section
variable {t : ℕ} {vs : List ℕ} {qs : List QuorumSet}

/-- The groups of slices, of splitting sets. -/
def sliceGroups (vs : List ℕ) (qs : List QuorumSet) : List (List NodeSet) :=
  vs.map (fun v => [({v} : NodeSet)]) ++ qs.map toQuorumSlices

def splitGroups (vs : List ℕ) (qs : List QuorumSet) : List (List NodeSet) :=
  vs.map (fun v => [({v} : NodeSet)]) ++ qs.map toSplittingSets

theorem sliceGroups_good (hd : DupFree ⟨t, vs, qs⟩) :
    List.Forall₂ GoodGroup (sliceGroups vs qs) (supports vs qs) := by
  refine List.rel_append ?_ ?_
  · rw [List.forall₂_map_left_iff, List.forall₂_map_right_iff, List.forall₂_same]
    intro v _
    constructor <;> simp
  · rw [List.forall₂_map_left_iff, List.forall₂_map_right_iff, List.forall₂_same]
    intro q' hq'
    obtain ⟨_, _, _, _, hi⟩ := hd
    exact toQuorumSlices_good (hi q' hq')

theorem splitGroups_good (hok : ∀ q ∈ qs, SplitOk q) :
    List.Forall₂ GoodGroup (splitGroups vs qs) (supports vs qs) := by
  refine List.rel_append ?_ ?_
  · rw [List.forall₂_map_left_iff, List.forall₂_map_right_iff, List.forall₂_same]
    intro v _
    constructor <;> simp
  · rw [List.forall₂_map_left_iff, List.forall₂_map_right_iff, List.forall₂_same]
    exact fun q' hq' => (hok q' hq').good

theorem groups_meets (hok : ∀ q ∈ qs, SplitOk q) :
    List.Forall₂ Meets (sliceGroups vs qs) (splitGroups vs qs) := by
  refine List.rel_append ?_ ?_
  · rw [List.forall₂_map_left_iff, List.forall₂_map_right_iff, List.forall₂_same]
    intro v _ s hs
    simp only [List.mem_singleton] at hs
    exact ⟨{v}, by simp, {v}, by simp, by simp [hs]⟩
  · rw [List.forall₂_map_left_iff, List.forall₂_map_right_iff, List.forall₂_same]
    intro q' hq' s hs
    obtain ⟨p, hp, p', hp', h, _⟩ := (hok q' hq').strict s hs
    exact ⟨p, hp, p', hp', h⟩

theorem sliceGroups_ne_nil (hok : ∀ q ∈ qs, SplitOk q) : ∀ g ∈ sliceGroups vs qs, g ≠ [] := by
  intro g hg
  rcases List.mem_append.1 hg with h | h
  · obtain ⟨v, _, rfl⟩ := List.mem_map.1 h; simp
  · obtain ⟨q', hq', rfl⟩ := List.mem_map.1 h
    exact (hok q' hq').slices_ne_nil

theorem splitGroups_ne_nil (hok : ∀ q ∈ qs, SplitOk q) : ∀ g ∈ splitGroups vs qs, g ≠ [] := by
  intro g hg
  rcases List.mem_append.1 hg with h | h
  · obtain ⟨v, _, rfl⟩ := List.mem_map.1 h; simp
  · obtain ⟨q', hq', rfl⟩ := List.mem_map.1 h
    exact (hok q' hq').ne_nil

theorem splitGroups_strict (hok : ∀ q ∈ qs, SplitOk q) (hne : qs ≠ []) :
    ∃ p ∈ (sliceGroups vs qs).zip (splitGroups vs qs), MeetsStrict p.1 p.2 := by
  obtain ⟨q, hq⟩ := List.exists_mem_of_ne_nil _ hne
  refine ⟨(q.toQuorumSlices, q.toSplittingSets), ?_, (hok q hq).strict⟩
  rw [sliceGroups, splitGroups, List.zip_append (by simp), List.mem_append]
  right
  rw [List.zip_map', List.mem_map]
  exact ⟨q, hq, rfl⟩

/-- Every potential splitting set is the intersection of two different minimal slices. -/
theorem potential_strict (hd : DupFree ⟨t, vs, qs⟩) (hok : ∀ q ∈ qs, SplitOk q)
    (hmaj : vs.length + qs.length < 2 * t) (hle : t ≤ vs.length + qs.length)
    (hch : t < vs.length + qs.length ∨ qs ≠ []) :
    MeetsStrict (toQuorumSlices ⟨t, vs, qs⟩) (potentialSplittingSets ⟨t, vs, qs⟩) := by
  intro T hT
  obtain ⟨k, hk⟩ : ∃ k, splittingThreshold ⟨t, vs, qs⟩ = k + 1 :=
    ⟨splittingThreshold ⟨t, vs, qs⟩ - 1, by rw [splittingThreshold_eq]; simp only; omega⟩
  have hk' := splittingThreshold_eq ⟨t, vs, qs⟩
  rw [hk] at hk'
  simp only at hk'
  rw [potentialSplittingSets, hk] at hT
  have hT' : T ∈ comb' (k + 1) (splitGroups vs qs) := (combineGroups_perm k _).mem_iff.1 hT
  have hlen : (splitGroups vs qs).length = vs.length + qs.length := by simp [splitGroups]
  obtain ⟨P, hP, Q, hQ, h1, h2⟩ := comb'_meets (sliceGroups_good hd) (supports_disjoint hd)
    (sliceGroups_ne_nil hok) (groups_meets hok) (a := vs.length + qs.length - t)
    (b := vs.length + qs.length - t) hT' (by omega)
  obtain ⟨t', rfl⟩ : ∃ t', t = t' + 1 := ⟨t - 1, by omega⟩
  have he : k + 1 + (vs.length + qs.length - (t' + 1)) = t' + 1 := by omega
  rw [he] at hP hQ
  rw [toQuorumSlices_eq]
  refine ⟨P, (combineGroups_perm t' _).mem_iff.2 hP, Q, (combineGroups_perm t' _).mem_iff.2 hQ,
    h1, h2 ?_⟩
  by_cases h : t' + 1 < vs.length + qs.length
  · exact .inl (by omega)
  · exact .inr ⟨by omega, splitGroups_strict hok (hch.resolve_left h)⟩

theorem dropIfOneQuorum_eq {q : QuorumSet} {L : List NodeSet} (h : ∀ T ∈ L, ¬ Slice T q) :
    q.dropIfOneQuorum L = L := by
  unfold dropIfOneQuorum
  split
  next s =>
    rw [if_neg]
    rw [isQuorumSlice_iff]
    exact h s (by simp)
  next => rfl

theorem not_slice_of_strict {q : QuorumSet} (hd : DupFree q) {L : List NodeSet}
    (h : MeetsStrict q.toQuorumSlices L) : ∀ T ∈ L, ¬ Slice T q := by
  intro T hT hs
  obtain ⟨P, hP, Q, hQ, rfl, hne⟩ := h T hT
  rw [mem_toQuorumSlices_iff_minimal hd, minimal_iff] at hP hQ
  refine hne ?_
  rw [hP.2 hs Finset.inter_subset_left]
  exact (hQ.2 hs Finset.inter_subset_right).symm

theorem potential_complete (hok : ∀ q ∈ qs, SplitOk q)
    (hmaj : vs.length + qs.length < 2 * t) {P Q : NodeSet} (hP : Slice P ⟨t, vs, qs⟩)
    (hQ : Slice Q ⟨t, vs, qs⟩) : ∃ T ∈ potentialSplittingSets ⟨t, vs, qs⟩, T ⊆ P ∩ Q := by
  rw [potentialSplittingSets, exists_combineGroups_subset, splittingThreshold_eq,
    List.filter_append, List.length_append, List.filter_map, List.filter_map, List.length_map,
    List.length_map]
  rw [slice_iff_count] at hP hQ
  simp only at hP hQ ⊢
  have e1 : (fun g : List NodeSet => g.any (fun s => decide (s ⊆ P ∩ Q))) ∘
      (fun v : ℕ => [({v} : NodeSet)]) = fun v => decide (v ∈ P) && decide (v ∈ Q) := by
    funext v; simp [Finset.subset_inter_iff]
  rw [e1]
  have h1 := filter_inter_length vs (fun x => decide (x ∈ P)) (fun x => decide (x ∈ Q))
  have h2 := filter_inter_length qs (fun q' => decide (Slice P q')) (fun q' => decide (Slice Q q'))
  have h4 : (qs.filter (fun q' => decide (Slice P q') && decide (Slice Q q'))).length ≤
      (qs.filter ((fun g : List NodeSet => g.any (fun s => decide (s ⊆ P ∩ Q))) ∘
        toSplittingSets)).length := by
    have : qs.filter (fun q' => decide (Slice P q') && decide (Slice Q q')) = qs.filter
        (fun q' => (decide (Slice P q') && decide (Slice Q q')) &&
          ((fun g : List NodeSet => g.any (fun s => decide (s ⊆ P ∩ Q))) ∘ toSplittingSets) q') := by
      refine List.filter_congr (fun q' hq' => ?_)
      by_cases h5 : Slice P q' <;> by_cases h6 : Slice Q q' <;> simp [h5, h6]
      obtain ⟨T, hT, hsub⟩ := (hok q' hq').complete P Q h5 h6
      exact ⟨T, hT, hsub⟩
    rw [this]
    refine (List.monotone_filter_right qs (fun x hx => ?_)).length_le
    rw [Bool.and_eq_true] at hx
    exact hx.2
  have hP' : t ≤ (vs.filter (fun x => decide (x ∈ P))).length +
    (qs.filter (fun q' => decide (Slice P q'))).length := hP.2
  have hQ' : t ≤ (vs.filter (fun x => decide (x ∈ Q))).length +
    (qs.filter (fun q' => decide (Slice Q q'))).length := hQ.2
  have h1' : (vs.filter (fun x => decide (x ∈ P))).length +
    (vs.filter (fun x => decide (x ∈ Q))).length ≤
    vs.length + (vs.filter (fun x => decide (x ∈ P) && decide (x ∈ Q))).length := h1
  constructor
  · omega
  · refine le_trans ?_ (Nat.add_le_add (le_refl _) h4)
    omega

theorem splitOk_of_inner (hd : DupFree ⟨t, vs, qs⟩) (hok : ∀ q ∈ qs, SplitOk q)
    (hmaj : vs.length + qs.length < 2 * t) (hle : t ≤ vs.length + qs.length)
    (hch : t < vs.length + qs.length ∨ qs ≠ []) : SplitOk ⟨t, vs, qs⟩ := by
  have hstrict := potential_strict hd hok hmaj hle hch
  have heq : toSplittingSets ⟨t, vs, qs⟩ = potentialSplittingSets ⟨t, vs, qs⟩ := by
    rw [toSplittingSets_eq, dropIfOneQuorum_eq (not_slice_of_strict hd hstrict)]
  refine ⟨?_, ?_, ?_, ?_⟩
  · rw [heq, ← unionAll_supports]
    exact combineGroups_good (splitGroups_good hok) (supports_disjoint hd) _
  · rw [heq]
    obtain ⟨k, hk⟩ : ∃ k, splittingThreshold ⟨t, vs, qs⟩ = k + 1 :=
      ⟨splittingThreshold ⟨t, vs, qs⟩ - 1, by rw [splittingThreshold_eq]; simp only; omega⟩
    have hk' := splittingThreshold_eq ⟨t, vs, qs⟩
    rw [hk] at hk'
    simp only at hk'
    have hlen : (splitGroups vs qs).length = vs.length + qs.length := by simp [splitGroups]
    obtain ⟨T, hT⟩ := List.exists_mem_of_ne_nil _
      (comb'_ne_nil (splitGroups_ne_nil hok (vs := vs)) (k := k + 1) (by omega))
    rw [potentialSplittingSets, hk]
    exact List.ne_nil_of_mem ((combineGroups_perm k _).mem_iff.2 hT)
  · rw [heq]; exact hstrict
  · intro P Q hP hQ
    rw [heq]; exact potential_complete hok hmaj hP hQ

end

theorem Spec.Majority.splitOk {q : QuorumSet} (h : Majority q) (hd : DupFree q) : SplitOk q := by
  induction q using QuorumSet.induct with
  | h t vs qs ih =>
    obtain ⟨_, hmaj, hle, hch, hi⟩ := h
    have hd' := hd
    obtain ⟨_, _, _, _, hdi⟩ := hd'
    exact splitOk_of_inner hd (fun q hq => ih q hq (hi q hq) (hdi q hq)) hmaj hle hch

end FA
