import Verif.Lemmas.Clusters
import Verif.Lemmas.Sets
import Verif.Model.Quorums

/-! Lemmas about the search for minimal quorums. -/

namespace FA
open Spec QuorumSet

theorem minimalForQuorumLoop_iff (f : Fbas) (l : List ℕ) (Q : NodeSet) (hl : ∀ x ∈ l, x ∈ Q) :
    minimalForQuorumLoop f l Q = true ↔ ∀ x ∈ l, ∀ P, IsQuorum f P → ¬ P ⊆ Q.erase x := by
  induction l with
  | nil => simp [minimalForQuorumLoop]
  | cons x l ih =>
    simp only [minimalForQuorumLoop]
    rw [Finset.insert_erase (hl x (by simp))]
    split
    next h =>
      obtain ⟨P, hP, hPQ⟩ := Fbas.containsQuorum_iff.1 h
      simp only [Bool.false_eq_true, false_iff, not_forall]
      exact ⟨x, by simp, P, hP, by simpa using hPQ⟩
    next h =>
      rw [Bool.not_eq_true, Fbas.containsQuorum_false] at h
      rw [ih (fun y hy => hl y (List.mem_cons_of_mem _ hy)), List.forall_mem_cons]
      exact ⟨fun h' => ⟨h, h'⟩, fun h' => h'.2⟩

theorem isMinimalForQuorum_iff {f : Fbas} {Q : NodeSet} :
    isMinimalForQuorum f Q = true ↔ ∀ P, IsQuorum f P → P ⊆ Q → P = Q := by
  rw [isMinimalForQuorum, minimalForQuorumLoop_iff f _ Q (fun x hx => mem_elems.1 hx)]
  constructor
  · intro h P hP hPQ
    by_contra hne
    obtain ⟨x, hxQ, hxP⟩ := Finset.exists_of_ssubset (hPQ.ssubset_of_ne hne)
    refine h x (mem_elems.2 hxQ) P hP (fun y hy => Finset.mem_erase.2 ⟨?_, hPQ hy⟩)
    rintro rfl; exact hxP hy
  · intro h x hx P hP hPx
    have := h P hP (hPx.trans (Finset.erase_subset _ _))
    subst this
    exact absurd (hPx (mem_elems.1 hx)) (by simp)

theorem isMinQuorum_iff {f : Fbas} {Q : NodeSet} :
    IsMinQuorum f Q ↔ IsQuorum f Q ∧ ∀ P, IsQuorum f P → P ⊆ Q → P = Q := by
  rw [IsMinQuorum, minimal_iff]
  exact and_congr_right (fun _ => ⟨fun h P hP hPQ => (h hP hPQ).symm,
    fun h P hP hPQ => (h P hP hPQ).symm⟩)

theorem isMinimalForQuorum_of_quorum {f : Fbas} {Q : NodeSet} (hQ : IsQuorum f Q) :
    isMinimalForQuorum f Q = true ↔ IsMinQuorum f Q := by
  rw [isMinimalForQuorum_iff, isMinQuorum_iff]; simp [hQ]

theorem Spec.IsMinQuorum.eq_of_subset {f : Fbas} {Q P : NodeSet} (hQ : IsMinQuorum f Q)
    (hP : IsQuorum f P) (h : P ⊆ Q) : P = Q := (isMinQuorum_iff.1 hQ).2 P hP h

theorem selectionSatisfiable_iff {f : Fbas} {sel av : NodeSet} :
    selectionSatisfiable f sel av = true ↔ ∀ x ∈ sel, Slice av (f.qset x) := by
  simp [selectionSatisfiable, Fbas.nodeIsQuorumSlice_iff]

/-- Invariant of the search: the call restores its state and appends exactly the minimal quorums
between `selection` and `available`. -/
theorem mqStep_spec (f : Fbas) (fuel : ℕ) (changed : Bool) (st : MqState)
    (hfuel : st.unprocessed.length < fuel) (hnd : st.unprocessed.Nodup)
    (hdis : ∀ x ∈ st.unprocessed, x ∉ st.selection)
    (hav : st.available = st.selection ∪ st.unprocessed.toFinset)
    (hch : changed = false → ¬ IsQuorum f st.selection) :
    ∃ L : List NodeSet, mqStep f fuel changed st = { st with found := st.found ++ L } ∧ L.Nodup ∧
      ∀ S, S ∈ L ↔ IsMinQuorum f S ∧ st.selection ⊆ S ∧ S ⊆ st.available := by
  induction fuel generalizing changed st with
  | zero => omega
  | succ fuel ih =>
    obtain ⟨un, sel, av, found⟩ := st
    simp only at hfuel hnd hdis hav hch ⊢
    subst hav
    rw [mqStep]
    split
    next h =>
      simp only [Bool.and_eq_true, Fbas.isQuorum_iff] at h
      split
      next hm =>
        rw [isMinimalForQuorum_of_quorum h.2] at hm
        refine ⟨[sel], rfl, by simp, fun S => ?_⟩
        rw [List.mem_singleton]
        constructor
        · rintro rfl; exact ⟨hm, Finset.Subset.refl _, Finset.subset_union_left⟩
        · rintro ⟨hS, hsub, _⟩
          exact (hS.eq_of_subset h.2 hsub).symm
      next hm =>
        rw [isMinimalForQuorum_of_quorum h.2] at hm
        refine ⟨[], by simp, by simp, fun S => ?_⟩
        simp only [List.not_mem_nil, false_iff, not_and]
        intro hS hsub
        exact absurd (hS.eq_of_subset h.2 hsub ▸ hS) hm
    next h =>
      have hnq : ¬ IsQuorum f sel := by
        cases changed with
        | false => exact hch rfl
        | true => simpa [Fbas.isQuorum_iff] using h
      cases un with
      | nil =>
        refine ⟨[], by simp, by simp, fun S => ?_⟩
        simp only [List.not_mem_nil, false_iff, not_and, List.toFinset_nil, Finset.union_empty]
        intro hS h1 h2
        exact hnq (Finset.Subset.antisymm h1 h2 ▸ hS.prop)
      | cons x rest =>
        rw [List.nodup_cons] at hnd
        have hxsel : x ∉ sel := hdis x (by simp)
        obtain ⟨L₁, h1, hL₁, hm₁⟩ := ih true
          ⟨rest, insert x sel, sel ∪ (x :: rest).toFinset, found⟩ (by simpa using hfuel) hnd.2
          (by
            intro y hy
            simp only [Finset.mem_insert, not_or]
            exact ⟨fun h => hnd.1 (h ▸ hy), hdis y (by simp [hy])⟩)
          (by simp [Finset.insert_union]) (by simp)
        simp only [h1]
        have hsel : (insert x sel).erase x = sel := Finset.erase_insert hxsel
        have hav : (sel ∪ (x :: rest).toFinset).erase x = sel ∪ rest.toFinset := by
          ext y
          simp only [Finset.mem_erase, Finset.mem_union, List.mem_toFinset, List.mem_cons]
          constructor
          · rintro ⟨h1, h2 | h2 | h2⟩
            · exact .inl h2
            · exact absurd h2 h1
            · exact .inr h2
          · rintro (h | h)
            · exact ⟨fun h' => hxsel (h' ▸ h), .inl h⟩
            · exact ⟨fun h' => hnd.1 (h' ▸ h), .inr (.inr h)⟩
        have hav' : insert x (sel ∪ rest.toFinset) = sel ∪ (x :: rest).toFinset := by
          simp
        rw [hsel, hav]
        simp only at hm₁
        have hsplit : ∀ S, (IsMinQuorum f S ∧ sel ⊆ S ∧ S ⊆ sel ∪ (x :: rest).toFinset) ↔
            S ∈ L₁ ∨ (IsMinQuorum f S ∧ sel ⊆ S ∧ S ⊆ sel ∪ rest.toFinset) := by
          intro S
          rw [hm₁, ← hav]
          generalize sel ∪ (x :: rest).toFinset = A
          by_cases hxS : x ∈ S
          · have : ¬ S ⊆ A.erase x :=
              fun h => absurd (h hxS) (by simp)
            simp [this, Finset.insert_subset_iff, hxS]
          · have h2 : ¬ insert x sel ⊆ S := fun h => hxS (h (by simp))
            rw [Finset.subset_erase]
            simp [h2, hxS]
        have hdisj : ∀ S ∈ L₁, ¬ (S ⊆ sel ∪ rest.toFinset) := by
          intro S hS hsub
          have h1 := ((hm₁ S).1 hS).2.1 (Finset.mem_insert_self x sel)
          rw [← hav] at hsub
          exact absurd (hsub h1) (by simp)
        split
        next hsat =>
          obtain ⟨L₂, h2, hL₂, hm₂⟩ := ih false
            ⟨rest, sel, sel ∪ rest.toFinset, found ++ L₁⟩ (by simpa using hfuel) hnd.2
            (fun y hy => hdis y (by simp [hy])) rfl (fun _ => hnq)
          refine ⟨L₁ ++ L₂, ?_, ?_, ?_⟩
          · rw [h2]; simp only [hav', List.append_assoc]
          · rw [List.nodup_append]
            refine ⟨hL₁, hL₂, ?_⟩
            rintro S hS _ hS' rfl
            exact hdisj S hS ((hm₂ S).1 hS').2.2
          · intro S
            rw [hsplit, List.mem_append, hm₂]
        next hsat =>
          rw [selectionSatisfiable_iff] at hsat
          refine ⟨L₁, ?_, hL₁, ?_⟩
          · simp only [hav']
          · intro S
            rw [hsplit]
            refine (or_iff_left ?_).symm
            rintro ⟨hS, h1, h2⟩
            exact hsat (fun y hy => ((isQuorum_iff.1 hS.prop).2 y (h1 hy)).mono h2)

/-- Starting the search on all nodes of a list. -/
theorem mqStep_start (f : Fbas) (l : List ℕ) (hl : l.Nodup) (found : List NodeSet) :
    ∃ L : List NodeSet, (mqStep f (l.length + 1) true ⟨l, ∅, ofList l, found⟩).found = found ++ L ∧
      L.Nodup ∧ ∀ S, S ∈ L ↔ IsMinQuorum f S ∧ S ⊆ l.toFinset := by
  obtain ⟨L, h1, h2, h3⟩ := mqStep_spec f (l.length + 1) true ⟨l, ∅, ofList l, found⟩ (by simp) hl
    (by simp) (by simp) (by simp)
  exact ⟨L, by rw [h1], h2, fun S => by simpa using h3 S⟩

end FA
