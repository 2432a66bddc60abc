import Verif.Lemmas.Machine
import Verif.Lemmas.FrontEndModes

/-!
# Helper lemmas: machine arithmetic in debug builds and in the front end
-/

namespace FA.Machine
open FA Spec Checked

/-- Same outcome, or a panic because of an overflow (only if `bad`). -/
def Agree {R : Type} (bad : Prop) (x y : Except Panic R) : Prop :=
  x = y ∨ (bad ∧ x = .error .overflow)

theorem Agree.rfl {R : Type} {bad : Prop} {x : Except Panic R} : Agree bad x x := .inl (Eq.refl x)

theorem Agree.ok_bind {R S : Type} {bad : Prop} {x : Except Panic R} {r : R} {g : R → Except Panic S}
    {y : Except Panic S} (h : Agree bad x (.ok r)) (hg : Agree bad (g r) y) : Agree bad (x >>= g) y := by
  rcases h with rfl | ⟨h1, rfl⟩
  · exact hg
  · exact .inr ⟨h1, Eq.refl _⟩

section Debug
variable {size : ℕ}

theorem Word.mul_debug (a b : ℕ) : Agree True (Word.mul ⟨size, true⟩ a b) (.ok (a * b)) := by
  by_cases h : a * b < size
  · exact .inl (Word.mul_ok h)
  · exact .inr ⟨trivial, by simp [Word.mul, Word.fit, h]⟩

theorem splittingThreshold_agree {q : QuorumSet} (hq : Representable size q) :
    Agree True (splittingThreshold ⟨size, true⟩ q) (.ok q.splittingThreshold) := by
  by_cases h : 2 * q.threshold < size
  · exact .inl (splittingThreshold_ok (w := ⟨size, true⟩) hq h)
  · exact .inr ⟨trivial, splittingThreshold_debug (Nat.le_of_not_lt h)⟩

theorem countSliceIntersections_agree {w : Word} {S : NodeSet} {qs : List QuorumSet}
    {p : QuorumSet → Bool}
    (h : ∀ q ∈ qs, Agree True (isSliceIntersection w S q) (.ok (p q))) (k : ℕ) :
    Agree True (countSliceIntersections w S qs k) (.ok ((qs.filter p).take k).length) := by
  induction qs generalizing k with
  | nil => cases k <;> exact .inl (by simp [countSliceIntersections])
  | cons q qs ih =>
    have ih := ih (fun q hq => h q (by simp [hq]))
    cases k with
    | zero => exact .inl (by simp [countSliceIntersections])
    | succ k =>
      rw [countSliceIntersections, List.filter_cons]
      refine (h q (by simp)).ok_bind ?_
      cases p q
      · simpa using ih (k + 1)
      · simp only [if_true, List.take_succ_cons, List.length_cons]
        exact (ih k).ok_bind .rfl

theorem isSliceIntersection_agree {S : NodeSet} {q : QuorumSet} (hq : Representable size q) :
    Agree True (isSliceIntersection ⟨size, true⟩ S q) (.ok (q.isSliceIntersection S)) := by
  induction q using QuorumSet.induct with
  | h t vs qs ih =>
    by_cases h : 2 * t < size
    · rw [isSliceIntersection]
      refine (splittingThreshold_agree hq).ok_bind ?_
      have hlt : QuorumSet.splittingThreshold ⟨t, vs, qs⟩ < size := by
        rw [splittingThreshold_eq]; simp only; omega
      have hcount := isSliceIntersection_iff_count (S := S) (q := ⟨t, vs, qs⟩)
      generalize QuorumSet.splittingThreshold ⟨t, vs, qs⟩ = st at hlt hcount
      split
      next h0 =>
        refine .inl ?_
        rw [hcount.2 (by omega)]
      next h0 =>
        dsimp only
        rw [Word.sub_ok (by rw [List.length_take]; omega), Checked.ok_bind]
        refine (countSliceIntersections_agree
          (fun q' hq' => ih q' hq' (Everywhere.inner hq hq')) _).ok_bind ?_
        rw [Word.add_ok (by simp only [List.length_take]; omega), Checked.ok_bind]
        refine .inl ?_
        congr 1
        rw [Bool.eq_iff_iff, beq_iff_eq, hcount]
        simp only [List.length_take]
        omega
    · refine .inr ⟨trivial, ?_⟩
      rw [isSliceIntersection, splittingThreshold_debug (Nat.le_of_not_lt h)]
      rfl

theorem allSliceIntersections_agree {w : Word} {f : Fbas} {av : NodeSet} {p : ℕ → Bool} {xs : List ℕ}
    (h : ∀ x ∈ xs, Agree True (isSliceIntersection w av (f.qset x)) (.ok (p x))) :
    Agree True (allSliceIntersections w f av xs) (.ok (xs.all p)) := by
  induction xs with
  | nil => exact .rfl
  | cons x xs ih =>
    rw [allSliceIntersections, List.all_cons]
    refine (h x (by simp)).ok_bind ?_
    cases p x
    · exact .rfl
    · simpa using ih (fun x hx => h x (by simp [hx]))

theorem msStep_agree {w : Word} {f : Fbas} {pot : NodeSet → NodeSet → Bool}
    (hpot : ∀ sel av, Agree True (hasPotential w f sel av) (.ok (pot sel av))) (fuel : ℕ)
    (parts : List NodeSet) (ch : Bool) (st : MsState) :
    Agree True (msStep w f fuel parts ch st) (.ok (msStepWith pot fuel parts ch st)) := by
  induction fuel generalizing parts ch st with
  | zero => exact .rfl
  | succ fuel ih =>
    rw [msStep, msStepWith]
    have hfound : Agree True (cond ch (isQuorumIntersection w f st.selection parts) (.ok false))
        (.ok (ch && isQuorumIntersectionWith pot st.selection parts)) := by
      cases ch
      · exact .rfl
      · simp only [cond_true, Bool.true_and]
        rw [isQuorumIntersection, isQuorumIntersectionWith]
        split
        next h => exact .inl (by simp [h])
        next h =>
          refine (hpot _ _).ok_bind ?_
          cases pot st.selection st.selection <;> exact .inl (by simp [h])
    split
    · exact .rfl
    · refine hfound.ok_bind ?_
      split
      · exact .rfl
      · cases st.unprocessed with
        | nil => exact .rfl
        | cons x rest =>
          dsimp only
          refine (ih _ _ _).ok_bind ((hpot _ _).ok_bind ?_)
          cases pot ((msStepWith pot fuel _ true _).selection.erase x) _
          · exact .rfl
          · rw [cond_true]
            exact (ih _ _ _).ok_bind .rfl

theorem toSplittingSetsList_agree {w : Word} {qs : List QuorumSet}
    (h : ∀ q ∈ qs, Agree True (toSplittingSets w q) (.ok q.toSplittingSets)) :
    Agree True (toSplittingSetsList w qs) (.ok (QuorumSet.toSplittingSetsList qs)) := by
  induction qs with
  | nil => exact .rfl
  | cons q qs ih =>
    rw [toSplittingSetsList]
    exact (h q (by simp)).ok_bind ((ih (fun q hq => h q (by simp [hq]))).ok_bind .rfl)

theorem toSplittingSets_agree {q : QuorumSet} (hq : Representable size q) :
    Agree True (toSplittingSets ⟨size, true⟩ q) (.ok q.toSplittingSets) := by
  induction q using QuorumSet.induct with
  | h t vs qs ih =>
    rw [toSplittingSets]
    refine (toSplittingSetsList_agree
      (fun q' hq' => ih q' hq' (Everywhere.inner hq hq'))).ok_bind ?_
    refine (splittingThreshold_agree hq).ok_bind ?_
    rw [dropIfOneQuorum_ok (w := ⟨size, true⟩) hq]
    exact .rfl

theorem finderLoop_agree {w : Word} (env : Env) {f : Fbas}
    (hpot : ∀ sel av, Agree True (hasPotential w f sel av) (.ok (FA.hasPotential f sel av)))
    (M : List NodeSet)
    (hq : ∀ K q, findSymmetricClusterInConsensusCluster f K = .ok (some q) →
      Agree True (toMinimalSplittingSets w q) (.ok q.toMinimalSplittingSets))
    (Ks found : List NodeSet) :
    Agree True (minimalSplittingSetsFinderLoop w env f M Ks found)
      (FA.minimalSplittingSetsFinderLoop env f M Ks found) := by
  induction Ks generalizing found with
  | nil => exact .rfl
  | cons K Ks ih =>
    rw [minimalSplittingSetsFinderLoop, FA.minimalSplittingSetsFinderLoop]
    cases hs : findSymmetricClusterInConsensusCluster f K with
    | error e => exact .rfl
    | ok o =>
      rw [Checked.ok_bind]
      cases o with
      | some q => exact (hq K q hs).ok_bind (ih _)
      | none =>
        refine (msStep_agree hpot _ _ _ _).ok_bind ?_
        rw [← msStep_eq_with]
        exact ih _

theorem findMinimalSplittingSets_agree (env : Env) {f : Fbas}
    (hf : All (fun q => q.threshold < size ∧ q.validators.length + q.inner.length + 1 < size) f)
    (M : List NodeSet) :
    Agree True (findMinimalSplittingSets ⟨size, true⟩ env f M)
      (FA.findMinimalSplittingSets env f M) := by
  have hpot : ∀ sel av, Agree True (hasPotential ⟨size, true⟩ f sel av)
      (.ok (FA.hasPotential f sel av)) := fun sel av =>
    allSliceIntersections_agree (fun x _ => isSliceIntersection_agree (hf x))
  have := finderLoop_agree env hpot M (fun K q hs => by
    obtain ⟨x, rfl⟩ := findSymmetric_qset hs
    exact (toSplittingSets_agree (hf x)).ok_bind .rfl) (consensusClusters env f) []
  simp only [findMinimalSplittingSets, FA.findMinimalSplittingSets, findMinimalSets, findSets,
    minimalSplittingSetsFinder, FA.minimalSplittingSetsFinder]
  rcases this with h | ⟨_, h⟩
  · rw [h]; exact .rfl
  · rw [h]; exact .inr ⟨trivial, Eq.refl _⟩

end Debug

/-! ### Shrinking -/

theorem length_shrunkenList (m : Map ℕ ℕ) (qs : List QuorumSet) :
    (QuorumSet.shrunkenList m qs).length ≤ qs.length := by
  induction qs with
  | nil => simp [QuorumSet.shrunkenList]
  | cons q qs ih =>
    rw [QuorumSet.shrunkenList]
    split <;> simp only [List.length_cons] <;> omega

theorem mem_shrunkenList {m : Map ℕ ℕ} {qs : List QuorumSet} {q' : QuorumSet}
    (h : q' ∈ QuorumSet.shrunkenList m qs) : ∃ q ∈ qs, q' = q.shrunken m := by
  induction qs with
  | nil => simp [QuorumSet.shrunkenList] at h
  | cons q qs ih =>
    rw [QuorumSet.shrunkenList] at h
    split at h
    · rcases List.mem_cons.1 h with rfl | h
      · exact ⟨q, by simp, rfl⟩
      · obtain ⟨q1, h1, h2⟩ := ih h
        exact ⟨q1, by simp [h1], h2⟩
    · obtain ⟨q1, h1, h2⟩ := ih h
      exact ⟨q1, by simp [h1], h2⟩

/-- Conditions that are kept if entries are removed. -/
def Hereditary (P : QuorumSet → Prop) : Prop :=
  ∀ t vs qs vs' qs', P ⟨t, vs, qs⟩ → vs'.length ≤ vs.length → qs'.length ≤ qs.length → P ⟨t, vs', qs'⟩

theorem everywhere_shrunken {P : QuorumSet → Prop} (hP : Hereditary P) (m : Map ℕ ℕ) {q : QuorumSet}
    (h : Everywhere P q) : Everywhere P (q.shrunken m) := by
  induction q using QuorumSet.induct with
  | h t vs qs ih =>
    rw [QuorumSet.shrunken]
    refine ⟨_, hP t vs qs _ _ (Everywhere.here h) ?_ ?_, fun q' hq' => ?_⟩
    · rw [sortIds, List.length_insertionSort]
      exact List.length_filterMap_le _ _
    · rw [QuorumSet.sortQs, List.length_insertionSort]
      exact length_shrunkenList m qs
    · simp only [QuorumSet.sortQs, List.mem_insertionSort] at hq'
      obtain ⟨q1, h1, rfl⟩ := mem_shrunkenList hq'
      exact ih q1 h1 (Everywhere.inner h h1)

theorem all_shrunken {P : QuorumSet → Prop} (hP : Hereditary P) (h0 : P QuorumSet.empty)
    {f f' : Fbas} {K : NodeSet} (h : ∀ x ∈ K, Everywhere P (f.qset x)) (hs : IsShrunken f K f') :
    All P f' := by
  intro i
  by_cases hi : i < K.card
  · rw [hs.qset i hi]
    exact everywhere_shrunken hP _ (h _ (un_mem hi))
  · rw [Fbas.qset_of_ge (by rw [hs.len]; exact Nat.le_of_not_lt hi)]
    exact ⟨_, h0, by simp [QuorumSet.empty]⟩

/-! ### `Analysis` -/

section
variable {w : Word} {env : Env} {f fR : Fbas} {a : Analysis} {pq pb : Params} {bad : Prop}
open Analysis

theorem modeQ_subset (hR : IsShrunken f (f.relevantNodes env) fR) (hq : ModeQ env f fR pq) :
    pq.K ⊆ f.relevantNodes env := by
  obtain ⟨QR, hQ, hK, _⟩ := hq.QR
  rw [hK]
  refine unSet_subset (unionAll_subset.2 ?_)
  obtain ⟨L, h1, h2, _⟩ := findMinimalQuorums_spec env hR.wf
  rw [hQ] at h1
  rw [Except.ok.inj h1]
  exact fun S hS => hR.quorum_subset ((h2 S).1 hS).prop

theorem modeB_subset (hR : IsShrunken f (f.relevantNodes env) fR) (hb : ModeB env f fR pb) :
    pb.K ⊆ f.relevantNodes env := by
  obtain ⟨BR, hB, hK, _⟩ := hb.BR
  rw [hK]
  refine unSet_subset (unionAll_subset.2 (fun S hS => ?_))
  rw [← hR.subset]
  exact findMinimalBlockingSets_subset env hR.wf hB hS

/-- The state after computing the minimal quorums. -/
theorem reach_quorums (hR : IsShrunken f (f.relevantNodes env) fR)
    (hq : ModeQ env f fR pq) (hb : ModeB env f fR pb) (h : Reach env f fR pq pb a) :
    ∃ Q a₁ K, minimalQuorumsShrunken env depth free a = .ok (Q, a₁) ∧
      K ⊆ f.relevantNodes env ∧ IsShrunken f K a₁.fbasShrunken := by
  rcases h with h | ⟨h, _⟩ | h
  · obtain ⟨a', h1, h2, _⟩ := h.mqs hR hq 4
    exact ⟨_, a', pq.K, h1, modeQ_subset hR hq, h2.fs ▸ hq.is⟩
  · obtain ⟨a', h1, h2, _⟩ := h.mqs 7 free
    exact ⟨_, a', pq.K, h1, modeQ_subset hR hq, h2.fs ▸ hq.is⟩
  · obtain ⟨a', h1, h2, _⟩ := h.mqs 7 free
    exact ⟨_, a', pb.K, h1, modeB_subset hR hb, h2.fs ▸ hb.is⟩

theorem Agree.cached {R : Type} {get : Analysis → Option R} {set : R → Analysis → Analysis}
    {c c' : Analysis → Except Panic (R × Analysis)} {b : Bool} {s : Analysis → Except Panic Analysis}
    {a : Analysis} (hc : Agree bad (c a) (c' a)) :
    Agree bad (cachedComputation get set c b s a) (cachedComputation get set c' b s a) := by
  unfold cachedComputation
  cases get a with
  | some r => exact .rfl
  | none =>
    dsimp only
    rcases hc with hc | ⟨h1, hc⟩
    · rw [hc]; exact .rfl
    · rw [hc]; exact .inr ⟨h1, Eq.refl _⟩

/-- What is needed of the search. -/
def SearchAgrees (w : Word) (env : Env) (f : Fbas) (bad : Prop) : Prop :=
  ∀ K f' M, K ⊆ f.relevantNodes env → IsShrunken f K f' →
    Agree bad (findMinimalSplittingSets w env f' M) (FA.findMinimalSplittingSets env f' M)

theorem splitting_agree (hR : IsShrunken f (f.relevantNodes env) fR)
    (hq : ModeQ env f fR pq) (hb : ModeB env f fR pb) (h : Reach env f fR pq pb a)
    (hs : SearchAgrees w env f bad) :
    Agree bad (minimalSplittingSetsShrunken w env free a)
      (Analysis.minimalSplittingSetsShrunken env free a) := by
  obtain ⟨Q, a₁, K, h1, hK, h2⟩ := reach_quorums hR hq hb h
  rw [minimalSplittingSetsShrunken, Analysis.minimalSplittingSetsShrunken, h1]
  refine Agree.cached ?_
  cases hasQuorumIntersectionFromShrunken env { Analysis.free with fbas := true } a₁ with
  | error e => exact .rfl
  | ok p =>
    obtain ⟨v, a₂⟩ := p
    cases v
    · exact .rfl
    · rcases hs K _ Q hK h2 with h3 | ⟨h3, h4⟩
      · simp only [h3]; exact .rfl
      · simp only [h4]; exact .inr ⟨h3, Eq.refl _⟩

theorem call_agree (hR : IsShrunken f (f.relevantNodes env) fR)
    (hq : ModeQ env f fR pq) (hb : ModeB env f fR pb) (h : Reach env f fR pq pb a)
    (hs : SearchAgrees w env f bad) (c : Call) :
    Agree bad (call w env a c) (a.call env c) := by
  by_cases hc : c = .minimalSplittingSets
  · subst hc
    rw [call, Analysis.call, minimalSplittingSets, Analysis.minimalSplittingSets]
    rcases splitting_agree hR hq hb h hs with h1 | ⟨h1, h2⟩
    · rw [h1]; exact .rfl
    · rw [h2]; exact .inr ⟨h1, Eq.refl _⟩
  · cases c <;> first | exact .rfl | exact absurd rfl hc

theorem calls_agree (hR : IsShrunken f (f.relevantNodes env) fR)
    (hq : ModeQ env f fR pq) (hb : ModeB env f fR pb) (h : Reach env f fR pq pb a)
    (hs : SearchAgrees w env f bad) (cs : List Call) :
    Agree bad (calls w env cs a) (Analysis.calls env cs a) := by
  induction cs generalizing a with
  | nil => exact .rfl
  | cons c cs ih =>
    rw [calls, Analysis.calls]
    rcases call_agree hR hq hb h hs c with h1 | ⟨h1, h2⟩
    · rw [h1]
      rcases Reach.calls hR hq hb h [c] with ⟨a', h3, h4⟩ | ⟨_, h3⟩
      · rw [Analysis.calls] at h3
        cases hr : Analysis.call env a c with
        | error e => exact .rfl
        | ok p =>
          rw [hr] at h3
          have := Except.ok.inj h3
          dsimp only
          exact ih (this ▸ h4)
      · rw [Analysis.calls] at h3
        cases hr : Analysis.call env a c with
        | error e => exact .rfl
        | ok p => rw [hr] at h3; cases h3
    · rw [h2]; exact .inr ⟨h1, Eq.refl _⟩

theorem answerAfter_agree (env : Env) (f : Fbas) (hs : SearchAgrees w env f bad)
    (history : List Call) (c : Call) :
    Agree bad (answerAfter w env f history c) (Analysis.answerAfter env f history c) := by
  obtain ⟨fR, a, h1, hR, hst⟩ := start_new env f
  obtain ⟨pq, hq⟩ := exists_modeQ env f hR
  obtain ⟨pb, hb⟩ := exists_modeB env f hR
  have hr : Reach env f fR pq pb a := .inl hst
  rw [answerAfter, Analysis.answerAfter, h1]
  dsimp only
  rcases calls_agree hR hq hb hr hs history with h2 | ⟨h2, h3⟩
  · rw [h2]
    rcases Reach.calls hR hq hb hr history with ⟨a', h3, h4⟩ | ⟨_, h3⟩
    · rw [h3]
      dsimp only
      rcases call_agree hR hq hb h4 hs c with h5 | ⟨h5, h6⟩
      · rw [h5]; exact .rfl
      · rw [h6]; exact .inr ⟨h5, Eq.refl _⟩
    · rw [h3]; exact .rfl
  · rw [h3]; exact .inr ⟨h2, Eq.refl _⟩

/-- The conditions for the search, from conditions on the nodes that are part of quorums. -/
theorem searchAgrees (env : Env) {f : Fbas} (hwf : WF f)
    (hf : ∀ x q, HasQSet f x q → Representable w.size q)
    (hh : ∀ x q, HasQSet f x q → (∃ Q, IsQuorum f Q ∧ x ∈ Q) →
      2 * (q.validators.length + q.inner.length) < w.size ∧ ∀ q' ∈ q.inner, HalfFits w.size q')
    (hsize : 2 ≤ w.size) : SearchAgrees w env f False := by
  intro K f' M hK hs
  have h1 : ∀ x ∈ K, ∃ q, HasQSet f x q ∧ f.qset x = q ∧ ∃ Q, IsQuorum f Q ∧ x ∈ Q ∧ Slice Q q := by
    intro x hx
    obtain ⟨⟨Q, hQ, hxQ⟩, _⟩ := (Props.C08_relevant_iff env f hwf x).1 (hK hx)
    obtain ⟨q, hq, hsl⟩ := hQ.2 x hxQ
    refine ⟨q, hq, ?_, Q, hQ, hxQ, hsl⟩
    obtain ⟨node, h2, rfl⟩ := hq
    unfold Fbas.qset
    rw [h2]
  refine .inl (findMinimalSplittingSets_ok env (all_shrunken ?_ ?_ ?_ hs) (all_shrunken ?_ ?_ ?_ hs) M)
  · intro t vs qs vs' qs' h2 h3 h4
    exact ⟨h2.1, by have := h2.2; simp only at this ⊢; omega⟩
  · simp only [QuorumSet.empty]
    exact ⟨by omega, by simp only [List.length_nil]; omega⟩
  · intro x hx
    obtain ⟨q, hq, he, _⟩ := h1 x hx
    rw [he]
    exact hf x q hq
  · exact fun t vs qs vs' qs' h2 _ _ => h2
  · simp only [QuorumSet.empty]; omega
  · intro x hx
    obtain ⟨q, hq, he, Q, hQ, hxQ, hsl⟩ := h1 x hx
    rw [he]
    obtain ⟨h2, h3⟩ := hh x q hq ⟨Q, hQ, hxQ⟩
    refine ⟨_, ?_, h3⟩
    obtain ⟨_, vs, qs, hvs, hqs, _, _, _, hlen⟩ := hsl
    have e1 := hvs.length_le
    have e2 := hqs.length_le
    omega

/-- Debug builds. -/
theorem searchAgrees_debug (env : Env) {f : Fbas} {size : ℕ}
    (hf : ∀ x q, HasQSet f x q → Representable size q) (hsize : 2 ≤ size) :
    SearchAgrees ⟨size, true⟩ env f True := by
  intro K f' M _ hs
  refine findMinimalSplittingSets_agree env (all_shrunken ?_ ?_ (fun x _ => ?_) hs) M
  · intro t vs qs vs' qs' h2 h3 h4
    exact ⟨h2.1, by have := h2.2; simp only at this ⊢; omega⟩
  · simp only [QuorumSet.empty]
    exact ⟨by omega, by simp only [List.length_nil]; omega⟩
  · refine all_of_hasQSet ?_ hf x
    simp only [QuorumSet.empty]
    exact ⟨by omega, by simp only [List.length_nil]; omega⟩

end
end FA.Machine
