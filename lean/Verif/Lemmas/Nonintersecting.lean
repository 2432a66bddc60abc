import Verif.Lemmas.Canonical

/-! Lemmas about the search for non-intersecting quorums. -/

namespace FA
open Spec QuorumSet

/-- Quorums that the search may report as first component. -/
def SplitOff (f : Fbas) (K : NodeSet) (sel av : NodeSet) (picks : ℕ) (S : NodeSet) : Prop :=
  IsQuorum f S ∧ sel ⊆ S ∧ S ⊆ av ∧ S.card ≤ sel.card + picks ∧ ∃ P, IsQuorum f P ∧ P ⊆ K \ S

/-- Invariant of the search. -/
theorem nqStep_spec (f : Fbas) (K : NodeSet) (fuel picks : ℕ) (changed : Bool) (st : NqState)
    (hfuel : st.unprocessed.length < fuel) (hnd : st.unprocessed.Nodup)
    (hdis : ∀ x ∈ st.unprocessed, x ∉ st.selection)
    (hselK : st.selection ⊆ K) (hunK : ∀ x ∈ st.unprocessed, x ∈ K)
    (hav : st.available = st.selection ∪ st.unprocessed.toFinset)
    (hanti : st.antiselection = K \ st.selection)
    (hch : changed = false → ¬ IsQuorum f st.selection) :
    (∃ a b st', nqStep f fuel picks changed st = (some (a, b), st') ∧ IsQuorum f a ∧
        IsQuorum f b ∧ Disjoint a b) ∨
      (nqStep f fuel picks changed st = (none, st) ∧
        ∀ S, ¬ SplitOff f K st.selection st.available picks S) := by
  induction fuel generalizing picks changed st with
  | zero => omega
  | succ fuel ih =>
    obtain ⟨un, sel, av, anti⟩ := st
    simp only at hfuel hnd hdis hselK hunK hav hanti hch ⊢
    subst hav hanti
    rw [nqStep]
    split
    next h =>
      simp only [Bool.and_eq_true, Fbas.isQuorum_iff] at h
      have hmax := (f.findSatisfiableNodes_spec (K \ sel)).1
      dsimp only
      split
      next hne =>
        left
        refine ⟨_, _, _, rfl, h.2, hmax.isQuorum (Finset.nonempty_iff_ne_empty.2 hne), ?_⟩
        rw [Finset.disjoint_left]
        exact fun x hx hx' => (Finset.mem_sdiff.1 (hmax.sub hx')).2 hx
      next hne =>
        right
        refine ⟨rfl, ?_⟩
        rintro S ⟨_, h1, _, _, P, hP, hPK⟩
        refine hne (Finset.nonempty_iff_ne_empty.1 (hmax.nonempty_iff.2 ⟨P, hP, ?_⟩))
        exact hPK.trans (Finset.sdiff_subset_sdiff (Finset.Subset.refl _) h1)
    next h =>
      have hnq : ¬ IsQuorum f sel := by
        cases changed with
        | false => exact hch rfl
        | true => simpa [Fbas.isQuorum_iff] using h
      split
      next hp =>
        right
        refine ⟨rfl, ?_⟩
        rintro S ⟨hS, h1, _, hc, _⟩
        have : sel = S := Finset.eq_of_subset_of_card_le h1 (by omega)
        exact hnq (this ▸ hS)
      next hp =>
        cases un with
        | nil =>
          right
          refine ⟨rfl, ?_⟩
          rintro S ⟨hS, h1, h2, _, _⟩
          simp only [List.toFinset_nil, Finset.union_empty] at h2
          exact hnq (Finset.Subset.antisymm h1 h2 ▸ hS)
        | cons x rest =>
          rw [List.nodup_cons] at hnd
          have hxsel : x ∉ sel := hdis x (by simp)
          have hxK : x ∈ K := hunK x (by simp)
          have hanti1 : (K \ sel).erase x = K \ insert x sel := by
            ext y; simp only [Finset.mem_erase, Finset.mem_sdiff, Finset.mem_insert]; tauto
          have hU : sel ∪ (x :: rest).toFinset = insert x (sel ∪ rest.toFinset) := by simp
          have hxr : x ∉ sel ∪ rest.toFinset := by
            simp only [Finset.mem_union, List.mem_toFinset, not_or]; exact ⟨hxsel, hnd.1⟩
          rw [hU]
          dsimp only
          have ih1 := ih (picks - 1) true
            ⟨rest, insert x sel, insert x (sel ∪ rest.toFinset), (K \ sel).erase x⟩
            (by simpa using hfuel) hnd.2
            (by
              intro y hy
              simp only [Finset.mem_insert, not_or]
              exact ⟨fun h => hnd.1 (h ▸ hy), hdis y (by simp [hy])⟩)
            (Finset.insert_subset hxK hselK) (fun y hy => hunK y (by simp [hy]))
            (by rw [Finset.insert_union]) hanti1 (by simp)
          rcases ih1 with ⟨a, b, st', h1, h2⟩ | ⟨h1, h2⟩
          · left
            rw [h1]
            exact ⟨a, b, st', rfl, h2⟩
          · rw [h1]
            dsimp only at h2 ⊢
            have hsel : (insert x sel).erase x = sel := Finset.erase_insert hxsel
            have hrem2 : insert x ((K \ sel).erase x) = K \ sel :=
              Finset.insert_erase (Finset.mem_sdiff.2 ⟨hxK, hxsel⟩)
            have hav1 : (insert x (sel ∪ rest.toFinset)).erase x = sel ∪ rest.toFinset :=
              Finset.erase_insert hxr
            rw [hsel, hrem2, hav1]
            -- quorums with `x` were covered by the first call
            have hwith : ∀ S, SplitOff f K sel (insert x (sel ∪ rest.toFinset)) picks S → x ∈ S →
                False := by
              rintro S ⟨hS, hs1, hs2, hs3, hs4⟩ hxS
              refine h2 S ⟨hS, Finset.insert_subset hxS hs1, hs2, ?_, hs4⟩
              rw [Finset.card_insert_of_notMem hxsel]
              omega
            have hwithout : ∀ S, SplitOff f K sel (insert x (sel ∪ rest.toFinset)) picks S →
                x ∉ S → SplitOff f K sel (sel ∪ rest.toFinset) picks S := by
              rintro S ⟨hS, hs1, hs2, hs3, hs4⟩ hxS
              exact ⟨hS, hs1, (Finset.subset_insert_iff_of_notMem hxS).1 hs2, hs3, hs4⟩
            split
            next r hr =>
              split at hr
              next hsat =>
                have ih2 := ih picks false ⟨rest, sel, sel ∪ rest.toFinset, K \ sel⟩
                  (by simpa using hfuel) hnd.2 (fun y hy => hdis y (by simp [hy])) hselK
                  (fun y hy => hunK y (by simp [hy])) rfl rfl (fun _ => hnq)
                rcases ih2 with ⟨a, b, st', h3, h4⟩ | ⟨h3, _⟩
                · rw [h3] at hr
                  injection hr with hr1 hr2
                  injection hr1 with hr1
                  left
                  exact ⟨a, b, _, by rw [hr1], h4⟩
                · rw [h3] at hr; simp at hr
              next hsat => simp at hr
            next st₂ hr =>
              right
              split at hr
              next hsat =>
                have ih2 := ih picks false ⟨rest, sel, sel ∪ rest.toFinset, K \ sel⟩
                  (by simpa using hfuel) hnd.2 (fun y hy => hdis y (by simp [hy])) hselK
                  (fun y hy => hunK y (by simp [hy])) rfl rfl (fun _ => hnq)
                rcases ih2 with ⟨a, b, st', h3, _⟩ | ⟨h3, h4⟩
                · rw [h3] at hr; simp at hr
                · rw [h3] at hr
                  injection hr with _ hr2
                  subst hr2
                  refine ⟨rfl, fun S hS => ?_⟩
                  by_cases hxS : x ∈ S
                  · exact hwith S hS hxS
                  · exact h4 S (hwithout S hS hxS)
              next hsat =>
                injection hr with _ hr2
                subst hr2
                refine ⟨rfl, fun S hS => ?_⟩
                by_cases hxS : x ∈ S
                · exact hwith S hS hxS
                · obtain ⟨hS1, hS2, hS3, _⟩ := hwithout S hS hxS
                  rw [selectionSatisfiable_iff] at hsat
                  exact hsat (fun y hy => ((isQuorum_iff.1 hS1).2 y (hS2 hy)).mono hS3)

/-- If there is only one consensus cluster, then it is a quorum. -/
theorem IsClusters.single_quorum {f : Fbas} {K : NodeSet} (h : IsClusters f [K]) :
    IsQuorum f K := by
  rw [isQuorum_iff]
  refine ⟨h.nonempty (by simp), fun x hx => ?_⟩
  have hsat := f.satisfiableNodes_spec
  have hxs := h.sat K (by simp) hx
  refine (hsat.closed x hxs).mono_on (fun y hy hys => ?_)
  have hS : IsQuorum f f.satisfiableNodes := hsat.isQuorum ⟨x, hxs⟩
  obtain ⟨R, _, hR, hreach⟩ := hS.reachable_part hys
  obtain ⟨Q, hQ, hQR⟩ := hR.exists_min
  obtain ⟨K', hK', hQK⟩ := h.cover Q hQ
  rw [List.mem_singleton] at hK'
  subst hK'
  obtain ⟨z, hz⟩ := hQ.prop.1
  rw [h.same _ (by simp) x hx]
  refine ⟨hys, Relation.ReflTransGen.single (trusts_iff.2 hy), ?_⟩
  exact (hreach z (hQR hz)).trans ((h.same _ (by simp) x hx z).1 (hQK hz)).2.2

theorem findNonintersectingQuorums_spec (env : Env) {f : Fbas} (hwf : WF f) :
    (¬ (∃ Q, IsQuorum f Q) ∧ findNonintersectingQuorums env f = .error .assertion) ∨
    (∃ L, findNonintersectingQuorums env f = .ok (some L) ∧ 2 ≤ L.length ∧
        L.Pairwise Disjoint ∧ ∀ Q ∈ L, IsQuorum f Q) ∨
    ((∃ Q, IsQuorum f Q) ∧ findNonintersectingQuorums env f = .ok none ∧
        ∀ P Q, IsQuorum f P → IsQuorum f Q → ¬ Disjoint P Q) := by
  have hKs := consensusClusters_spec env hwf
  simp only [findNonintersectingQuorums, findSets, nonintersectingQuorumsFinder]
  rcases hl : consensusClusters env f with _ | ⟨K, _ | ⟨K', Ks⟩⟩
  · left
    refine ⟨hKs.eq_nil_iff.1 hl, ?_⟩
    have hr : env.rank f (elems ∅) = [] := by
      have := env.rank_perm f []
      simpa using this.eq_nil
    rw [elems_empty] at hr
    simp [hr, nqStep, Fbas.isQuorum]
  · right
    rw [hl] at hKs
    obtain ⟨hr1, hr2⟩ := rank_elems env f K
    have hlen : (env.rank f (elems K)).length = K.card := by
      rw [(env.rank_perm f (elems K)).length_eq, length_elems]
    have hstep := nqStep_spec f K ((env.rank f (elems K)).length + 1)
      ((env.rank f (elems K)).length / 2) true
      ⟨env.rank f (elems K), ∅, ofList (env.rank f (elems K)), ofList (env.rank f (elems K))⟩
      (by simp) hr1 (by simp) (by simp) (by
        intro x hx; simp only at hx; rw [← hr2]; simpa using hx)
      (by simp) (by simp [hr2]) (by simp)
    simp only [List.length_cons, List.length_nil, gt_iff_lt, lt_irrefl, if_false,
      List.head?_cons, Option.getD_some, zero_add]
    rcases hstep with ⟨a, b, st', h1, h2, h3, h4⟩ | ⟨h1, h2⟩
    · left
      rw [h1]
      dsimp only
      rw [if_pos (by rw [Bool.and_eq_true, Fbas.isQuorum_iff, Fbas.isQuorum_iff]; exact ⟨h2, h3⟩),
        if_pos h4]
      refine ⟨[a, b], by simp, by simp, by simpa using h4, by simp [h2, h3]⟩
    · right
      have hKq := hKs.single_quorum
      rw [h1]
      dsimp only
      refine ⟨⟨K, hKq⟩, ?_, ?_⟩
      · rw [ofList, hr2, if_pos (Fbas.isQuorum_iff.2 hKq)]
        simp
      · intro P Q hP hQ hd
        simp only [ofList, hr2, hlen] at h2
        obtain ⟨P', hP', hPP⟩ := hP.exists_min
        obtain ⟨Q', hQ', hQQ⟩ := hQ.exists_min
        have hd' : Disjoint P' Q' := Finset.disjoint_of_subset_left hPP
          (Finset.disjoint_of_subset_right hQQ hd)
        have hsubK : ∀ S, IsMinQuorum f S → S ⊆ K := by
          intro S hS
          obtain ⟨K', hK', hsub⟩ := hKs.cover S hS
          rw [List.mem_singleton] at hK'
          exact hK' ▸ hsub
        have hcard : P'.card + Q'.card ≤ K.card := by
          rw [← Finset.card_union_of_disjoint hd']
          exact Finset.card_le_card (Finset.union_subset (hsubK P' hP') (hsubK Q' hQ'))
        rcases Nat.le_total P'.card Q'.card with hle | hle
        · refine h2 P' ⟨hP'.prop, by simp, hsubK P' hP', ?_, Q', hQ'.prop, ?_⟩
          · simp only [Finset.card_empty, zero_add]; omega
          · exact Finset.subset_sdiff.2 ⟨hsubK Q' hQ', hd'.symm⟩
        · refine h2 Q' ⟨hQ'.prop, by simp, hsubK Q' hQ', ?_, P', hP'.prop, ?_⟩
          · simp only [Finset.card_empty, zero_add]; omega
          · exact Finset.subset_sdiff.2 ⟨hsubK P' hP', hd'⟩
  · right; left
    rw [hl] at hKs
    rw [if_pos (by simp)]
    dsimp only
    refine ⟨_, by rw [if_neg (by simp)], by simp, ?_, ?_⟩
    · rw [List.pairwise_map]
      refine hKs.disjoint.imp (fun {a b} hab => ?_)
      exact Finset.disjoint_of_subset_left (f.findSatisfiableNodes_spec a).1.sub
        (Finset.disjoint_of_subset_right (f.findSatisfiableNodes_spec b).1.sub hab)
    · intro Q hQ
      obtain ⟨K₁, hK₁, rfl⟩ := List.mem_map.1 hQ
      have h1 := (f.findSatisfiableNodes_spec K₁).1
      exact h1.isQuorum (h1.nonempty_iff.2 (hKs.quorum K₁ hK₁))

end FA
