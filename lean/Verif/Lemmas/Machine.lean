import Verif.Model.Machine
import Verif.SpecMachine
import Verif.Lemmas.Checked
import Verif.Lemmas.SplittingClusters

/-!
# Helper lemmas: machine arithmetic
-/

namespace FA.Machine
open FA Spec FA.Checked

variable {w : Word}

theorem Word.fit_ok {n : ℕ} (h : n < w.size) : w.fit n = .ok n := if_pos h

theorem Word.add_ok {a b : ℕ} (h : a + b < w.size) : w.add a b = .ok (a + b) := Word.fit_ok h

theorem Word.mul_ok {a b : ℕ} (h : a * b < w.size) : w.mul a b = .ok (a * b) := Word.fit_ok h

theorem Word.sub_ok {a b : ℕ} (h : b ≤ a) : w.sub a b = .ok (a - b) := if_pos h

theorem Everywhere.here {P : QuorumSet → Prop} {q : QuorumSet} (h : Everywhere P q) : P q := by
  cases h; assumption

theorem Everywhere.inner {P : QuorumSet → Prop} {q q' : QuorumSet} (h : Everywhere P q)
    (hq : q' ∈ q.inner) : Everywhere P q' := by
  cases h with
  | intro _ _ h => exact h q' hq

/-! ### The slice test -/

theorem countSlices_ok {S : NodeSet} {qs : List QuorumSet} {p : QuorumSet → Bool}
    (h : ∀ q ∈ qs, isQuorumSlice w S q = .ok (p q)) (k : ℕ) :
    countSlices w S qs k = .ok ((qs.filter p).take k).length := by
  induction qs generalizing k with
  | nil => simp [countSlices]
  | cons q qs ih =>
    have ih := ih (fun q hq => h q (by simp [hq]))
    cases k with
    | zero => simp [countSlices]
    | succ k =>
      rw [countSlices, h q (by simp), ok_bind, List.filter_cons]
      cases p q
      · simp only [Bool.false_eq_true, if_false, ih]
      · simp only [if_true, ih, ok_bind, List.take_succ_cons, List.length_cons]

theorem isQuorumSlice_ok {S : NodeSet} {q : QuorumSet} (hq : Representable w.size q) :
    isQuorumSlice w S q = .ok (q.isQuorumSlice S) := by
  induction q using QuorumSet.induct with
  | h t vs qs ih =>
    have ht : t < w.size := (Everywhere.here hq).1
    rw [isQuorumSlice, QuorumSet.isQuorumSlice, QuorumSet.filterSlices_eq]
    split
    · rfl
    · dsimp only
      rw [Word.sub_ok (by rw [List.length_take]; omega), ok_bind,
        countSlices_ok (fun q' hq' => ih q' hq' (Everywhere.inner hq hq')), ok_bind,
        Word.add_ok (by simp only [List.length_take]; omega), ok_bind]

/-! ### Blocking sets -/

theorem blockingThreshold_ok {q : QuorumSet} (hq : Representable w.size q) :
    blockingThreshold w q = .ok q.blockingThreshold := by
  obtain ⟨h1, h2⟩ := Everywhere.here hq
  rw [blockingThreshold, QuorumSet.blockingThreshold, Word.add_ok (by omega), ok_bind]
  split
  · rw [ok_bind, Word.sub_ok (by omega), ok_bind, Word.add_ok (by omega)]
  · rfl

theorem toBlockingSetsList_ok {qs : List QuorumSet}
    (h : ∀ q ∈ qs, toBlockingSets w q = .ok q.toBlockingSets) :
    toBlockingSetsList w qs = .ok (QuorumSet.toBlockingSetsList qs) := by
  induction qs with
  | nil => rfl
  | cons q qs ih =>
    rw [toBlockingSetsList, h q (by simp), ok_bind, ih (fun q hq => h q (by simp [hq])), ok_bind]
    rfl

theorem toBlockingSets_ok {q : QuorumSet} (hq : Representable w.size q) :
    toBlockingSets w q = .ok q.toBlockingSets := by
  induction q using QuorumSet.induct with
  | h t vs qs ih =>
    rw [toBlockingSets, toBlockingSetsList_ok (fun q hq' => ih q hq' (Everywhere.inner hq hq')),
      ok_bind, blockingThreshold_ok hq, ok_bind]
    rfl

/-! ### The splitting threshold -/

theorem splittingThreshold_ok {q : QuorumSet} (hq : Representable w.size q) (h : 2 * q.threshold < w.size) :
    splittingThreshold w q = .ok q.splittingThreshold := by
  obtain ⟨h1, h2⟩ := Everywhere.here hq
  rw [splittingThreshold, QuorumSet.splittingThreshold, Word.mul_ok h, ok_bind,
    Word.add_ok (by omega), ok_bind]
  split
  · rw [ok_bind, ok_bind, Word.sub_ok (by omega)]
  · rfl

/-- What the code computes in release builds. -/
theorem splittingThreshold_release {size : ℕ} {q : QuorumSet} (hq : Representable size q)
    (h : size ≤ 2 * q.threshold) :
    splittingThreshold ⟨size, false⟩ q =
      .ok (2 * q.threshold - size - (q.validators.length + q.inner.length)) := by
  obtain ⟨h1, h2⟩ := Everywhere.here hq
  have hmod : 2 * q.threshold % size = 2 * q.threshold - size := by
    rw [Nat.mod_eq_sub_mod h, Nat.mod_eq_of_lt (by omega)]
  have hmul : Word.mul ⟨size, false⟩ 2 q.threshold = .ok (2 * q.threshold - size) := by
    simp only [Word.mul, Word.fit, if_neg (Nat.not_lt.2 h), hmod]
    rfl
  rw [splittingThreshold, hmul, ok_bind, Word.add_ok (by simpa using by omega), ok_bind]
  split
  · rw [ok_bind, ok_bind, Word.sub_ok (by omega)]
  · congr 1; omega

theorem splittingThreshold_debug {size : ℕ} {q : QuorumSet} (h : size ≤ 2 * q.threshold) :
    splittingThreshold ⟨size, true⟩ q = .error .overflow := by
  have hmul : Word.mul ⟨size, true⟩ 2 q.threshold = .error .overflow := by
    simp only [Word.mul, Word.fit, if_neg (Nat.not_lt.2 h)]
    rfl
  rw [splittingThreshold, hmul]; rfl

theorem countSliceIntersections_ok {S : NodeSet} {qs : List QuorumSet} {p : QuorumSet → Bool}
    (h : ∀ q ∈ qs, isSliceIntersection w S q = .ok (p q)) (k : ℕ) :
    countSliceIntersections w S qs k = .ok ((qs.filter p).take k).length := by
  induction qs generalizing k with
  | nil => simp [countSliceIntersections]
  | cons q qs ih =>
    have ih := ih (fun q hq => h q (by simp [hq]))
    cases k with
    | zero => simp [countSliceIntersections]
    | succ k =>
      rw [countSliceIntersections, h q (by simp), ok_bind, List.filter_cons]
      cases p q
      · simp only [Bool.false_eq_true, if_false, ih]
      · simp only [if_true, ih, ok_bind, List.take_succ_cons, List.length_cons]

/-- The value, given the values for the inner quorum sets. -/
theorem isSliceIntersection_value {S : NodeSet} {t : ℕ} {vs : List ℕ} {qs : List QuorumSet} {st : ℕ}
    (hst : splittingThreshold w ⟨t, vs, qs⟩ = .ok st) (hlt : st < w.size) {p : QuorumSet → Bool}
    (h : ∀ q ∈ qs, isSliceIntersection w S q = .ok (p q)) :
    isSliceIntersection w S ⟨t, vs, qs⟩ =
      .ok (decide (st ≤ (vs.filter (fun x => decide (x ∈ S))).length + (qs.filter p).length)) := by
  rw [isSliceIntersection, hst, ok_bind]
  split
  next h0 => simp [h0]
  next h0 =>
    dsimp only
    rw [Word.sub_ok (by rw [List.length_take]; omega), ok_bind, countSliceIntersections_ok h, ok_bind,
      Word.add_ok (by simp only [List.length_take]; omega), ok_bind]
    congr 1
    rw [Bool.eq_iff_iff, beq_iff_eq, decide_eq_true_iff]
    simp only [List.length_take]
    omega

theorem isSliceIntersection_ok {S : NodeSet} {q : QuorumSet} (hq : Representable w.size q)
    (hh : HalfFits w.size q) : isSliceIntersection w S q = .ok (q.isSliceIntersection S) := by
  induction q using QuorumSet.induct with
  | h t vs qs ih =>
    have h1 := Everywhere.here hh
    rw [isSliceIntersection_value (splittingThreshold_ok hq h1) ?_
      (fun q' hq' => ih q' hq' (Everywhere.inner hq hq') (Everywhere.inner hh hq'))]
    · congr 1
      rw [Bool.eq_iff_iff, decide_eq_true_iff, isSliceIntersection_iff_count]
    · rw [splittingThreshold_eq]
      simp only at h1 ⊢
      omega

/-- In release builds the test never fails, and it accepts whatever the test with unbounded numbers
accepts. -/
theorem isSliceIntersection_release {size : ℕ} {S : NodeSet} {q : QuorumSet} (hq : Representable size q) :
    ∃ b, isSliceIntersection ⟨size, false⟩ S q = .ok b ∧
      (q.isSliceIntersection S = true → b = true) := by
  induction q using QuorumSet.induct with
  | h t vs qs ih =>
    obtain ⟨h1, h2⟩ := Everywhere.here hq
    have hst : ∃ st, splittingThreshold ⟨size, false⟩ ⟨t, vs, qs⟩ = .ok st ∧ st < size ∧
        st ≤ QuorumSet.splittingThreshold ⟨t, vs, qs⟩ := by
      by_cases h : 2 * t < size
      · refine ⟨_, splittingThreshold_ok (w := ⟨size, false⟩) hq h, ?_, le_rfl⟩
        rw [splittingThreshold_eq]
        simp only
        omega
      · refine ⟨_, splittingThreshold_release hq (Nat.not_lt.1 h), ?_, ?_⟩
        · simp only at h1 ⊢; omega
        · rw [splittingThreshold_eq]; simp only; omega
    obtain ⟨st, hst1, hst2, hst3⟩ := hst
    have ih' : ∀ q ∈ qs, ∃ b, isSliceIntersection ⟨size, false⟩ S q = .ok b ∧
        (q.isSliceIntersection S = true → b = true) :=
      fun q' hq' => ih q' hq' (Everywhere.inner hq hq')
    let p : QuorumSet → Bool := fun q =>
      match isSliceIntersection ⟨size, false⟩ S q with
      | .ok b => b
      | .error _ => false
    have hp : ∀ q ∈ qs, isSliceIntersection ⟨size, false⟩ S q = .ok (p q) := by
      intro q' hq'
      obtain ⟨b, hb, _⟩ := ih' q' hq'
      simp only [p, hb]
    refine ⟨_, isSliceIntersection_value hst1 hst2 hp, fun h => ?_⟩
    rw [isSliceIntersection_iff_count] at h
    rw [decide_eq_true_iff]
    have hle : (qs.filter (QuorumSet.isSliceIntersection S)).length ≤ (qs.filter p).length := by
      rw [← List.countP_eq_length_filter, ← List.countP_eq_length_filter]
      refine List.countP_mono_left (fun q' hq' hb => ?_)
      obtain ⟨b, hb1, hb2⟩ := ih' q' hq'
      have := hp q' hq'
      rw [hb1] at this
      rw [← Except.ok.inj this]
      exact hb2 hb
    simp only at h
    omega

/-! ### The search -/

theorem allSliceIntersections_ok {f : Fbas} {av : NodeSet} {p : ℕ → Bool} {xs : List ℕ}
    (h : ∀ x ∈ xs, isSliceIntersection w av (f.qset x) = .ok (p x)) :
    allSliceIntersections w f av xs = .ok (xs.all p) := by
  induction xs with
  | nil => rfl
  | cons x xs ih =>
    rw [allSliceIntersections, h x (by simp), ok_bind, List.all_cons]
    cases p x
    · rfl
    · simpa using ih (fun x hx => h x (by simp [hx]))

/-- The heuristic as a function (`false` for overflows). -/
def potential (w : Word) (f : Fbas) (sel av : NodeSet) : Bool :=
  match hasPotential w f sel av with
  | .ok b => b
  | .error _ => false

theorem msStep_ok {f : Fbas} {pot : NodeSet → NodeSet → Bool}
    (hpot : ∀ sel av, hasPotential w f sel av = .ok (pot sel av)) (fuel : ℕ) (parts : List NodeSet)
    (ch : Bool) (st : MsState) :
    msStep w f fuel parts ch st = .ok (msStepWith pot fuel parts ch st) := by
  induction fuel generalizing parts ch st with
  | zero => rfl
  | succ fuel ih =>
    rw [msStep, msStepWith]
    have hfound : cond ch (isQuorumIntersection w f st.selection parts) (.ok false) =
        .ok (ch && isQuorumIntersectionWith pot st.selection parts) := by
      cases ch
      · rfl
      · simp only [cond_true, Bool.true_and]
        rw [isQuorumIntersection, isQuorumIntersectionWith]
        split
        next h => simp [h]
        next h =>
          rw [hpot, ok_bind]
          cases pot st.selection st.selection <;> simp [h]
    split
    · rfl
    · rw [hfound, ok_bind]
      split
      · rfl
      · cases st.unprocessed with
        | nil => rfl
        | cons x rest =>
          dsimp only
          rw [ih, ok_bind]
          rw [hpot, ok_bind]
          cases pot ((msStepWith pot fuel _ true _).selection.erase x) _
          · rfl
          · rw [cond_true, ih, ok_bind]
            rfl

theorem dropIfOneQuorum_ok {q : QuorumSet} (hq : Representable w.size q) (L : List NodeSet) :
    dropIfOneQuorum w q L = .ok (QuorumSet.dropIfOneQuorum q L) := by
  match L with
  | [] => rfl
  | [s] =>
    rw [dropIfOneQuorum, QuorumSet.dropIfOneQuorum, isQuorumSlice_ok hq, ok_bind]
    split <;> rfl
  | _ :: _ :: _ => rfl

theorem toSplittingSetsList_ok {qs : List QuorumSet}
    (h : ∀ q ∈ qs, toSplittingSets w q = .ok q.toSplittingSets) :
    toSplittingSetsList w qs = .ok (QuorumSet.toSplittingSetsList qs) := by
  induction qs with
  | nil => rfl
  | cons q qs ih =>
    rw [toSplittingSetsList, h q (by simp), ok_bind, ih (fun q hq => h q (by simp [hq])), ok_bind]
    rfl

theorem toSplittingSets_ok {q : QuorumSet} (hq : Representable w.size q) (hh : HalfFits w.size q) :
    toSplittingSets w q = .ok q.toSplittingSets := by
  induction q using QuorumSet.induct with
  | h t vs qs ih =>
    rw [toSplittingSets, toSplittingSetsList_ok
      (fun q hq' => ih q hq' (Everywhere.inner hq hq') (Everywhere.inner hh hq')), ok_bind,
      splittingThreshold_ok hq (Everywhere.here hh), ok_bind, dropIfOneQuorum_ok hq]
    rfl

theorem toMinimalSplittingSets_ok {q : QuorumSet} (hq : Representable w.size q) (hh : HalfFits w.size q) :
    toMinimalSplittingSets w q = .ok q.toMinimalSplittingSets := by
  rw [toMinimalSplittingSets, toSplittingSets_ok hq hh, ok_bind]
  rfl

/-! ### FBASs -/

/-- All quorum sets satisfy `P` everywhere. -/
def All (P : QuorumSet → Prop) (f : Fbas) : Prop := ∀ x, Everywhere P (f.qset x)

theorem all_of_hasQSet {P : QuorumSet → Prop} (h0 : P QuorumSet.empty) {f : Fbas}
    (h : ∀ x q, HasQSet f x q → Everywhere P q) : All P f := by
  intro x
  unfold Fbas.qset
  split
  next node hn => exact h x _ ⟨node, hn, rfl⟩
  next => exact .intro _ h0 (by simp [QuorumSet.empty])

theorem mem_foldl_symStep {f : Fbas} {q : QuorumSet} (xs : List ℕ) (st : SymState)
    (h : q ∈ (xs.foldl (symStep f) st).found) : q ∈ st.found ∨ ∃ x, f.qset x = q := by
  induction xs generalizing st with
  | nil => exact .inl h
  | cons x xs ih =>
    rcases ih _ h with h | h
    · unfold symStep at h
      dsimp only at h
      split at h
      · dsimp only at h
        split at h
        · rw [List.mem_append, List.mem_singleton] at h
          exact h.imp_right (fun h => ⟨x, h.symm⟩)
        · exact .inl h
      · exact .inl h
    · exact .inr h

theorem findSymmetric_qset {f : Fbas} {K : NodeSet} {q : QuorumSet}
    (h : findSymmetricClusterInConsensusCluster f K = .ok (some q)) : ∃ x, f.qset x = q := by
  unfold findSymmetricClusterInConsensusCluster at h
  split at h
  · cases h
  next q' qs hq =>
    split at h
    · cases h
    · split at h
      · cases h
      · injection h with h
        injection h with h
        subst h
        have := mem_foldl_symStep (f := f) (q := q') (elems K) ⟨[], []⟩ (by
          unfold findSymmetricClustersInNodeSet at hq
          rw [hq]; simp)
        simpa using this

theorem finderLoop_ok (env : Env) {f : Fbas} {pot : NodeSet → NodeSet → Bool}
    (hpot : ∀ sel av, hasPotential w f sel av = .ok (pot sel av)) (M : List NodeSet)
    (hq : ∀ K q, findSymmetricClusterInConsensusCluster f K = .ok (some q) →
      toMinimalSplittingSets w q = .ok q.toMinimalSplittingSets)
    (hpp : pot = FA.hasPotential f) (Ks found : List NodeSet) :
    minimalSplittingSetsFinderLoop w env f M Ks found =
      FA.minimalSplittingSetsFinderLoop env f M Ks found := by
  induction Ks generalizing found with
  | nil => rfl
  | cons K Ks ih =>
    rw [minimalSplittingSetsFinderLoop, FA.minimalSplittingSetsFinderLoop]
    cases hs : findSymmetricClusterInConsensusCluster f K with
    | error e => rfl
    | ok o =>
      rw [ok_bind]
      cases o with
      | some q =>
        dsimp only
        rw [hq K q hs, ok_bind, ih]
      | none =>
        dsimp only
        rw [msStep_ok hpot, ok_bind, hpp, ← msStep_eq_with, ih]

theorem findMinimalSplittingSets_ok (env : Env) {f : Fbas}
    (hf : All (fun q => q.threshold < w.size ∧ q.validators.length + q.inner.length + 1 < w.size) f)
    (hh : All (fun q => 2 * q.threshold < w.size) f) (M : List NodeSet) :
    findMinimalSplittingSets w env f M = FA.findMinimalSplittingSets env f M := by
  have hpot : ∀ sel av, hasPotential w f sel av = .ok (FA.hasPotential f sel av) := fun sel av =>
    allSliceIntersections_ok (fun x _ => isSliceIntersection_ok (hf x) (hh x))
  simp only [findMinimalSplittingSets, FA.findMinimalSplittingSets, findMinimalSets, findSets,
    minimalSplittingSetsFinder, FA.minimalSplittingSetsFinder]
  rw [finderLoop_ok env hpot M (fun K q hs => ?_) rfl]
  obtain ⟨x, rfl⟩ := findSymmetric_qset hs
  exact toMinimalSplittingSets_ok (hf x) (hh x)

/-! ### Release builds -/

theorem hasPotential_release {size : ℕ} {f : Fbas}
    (hf : All (fun q => q.threshold < size ∧ q.validators.length + q.inner.length + 1 < size) f)
    (sel av : NodeSet) : ∃ b, hasPotential ⟨size, false⟩ f sel av = .ok b ∧
      (FA.hasPotential f sel av = true → b = true) := by
  let p : ℕ → Bool := fun x =>
    match isSliceIntersection ⟨size, false⟩ av (f.qset x) with
    | .ok b => b
    | .error _ => false
  have hp : ∀ x, isSliceIntersection ⟨size, false⟩ av (f.qset x) = .ok (p x) := by
    intro x
    obtain ⟨b, hb, _⟩ := isSliceIntersection_release (S := av) (hf x)
    simp only [p, hb]
  refine ⟨_, allSliceIntersections_ok (fun x _ => hp x), fun h => ?_⟩
  rw [hasPotential_iff] at h
  rw [List.all_eq_true]
  intro x hx
  obtain ⟨b, hb1, hb2⟩ := isSliceIntersection_release (S := av) (hf x)
  have := hp x
  rw [hb1] at this
  rw [← Except.ok.inj this]
  exact hb2 (h x (mem_elems.1 hx))

/-- What the loop adds for one cluster. -/
def clusterSplittingWith (pot : NodeSet → NodeSet → Bool) (env : Env) (f : Fbas) (M : List NodeSet)
    (K : NodeSet) : List NodeSet :=
  match findSymmetricClusterInConsensusCluster f K with
  | .ok (some q) => q.toMinimalSplittingSets
  | _ => removeNonMinimalNodeSets (msStepWith pot ((env.rank f (elems K)).length + 1) M true
      ⟨env.rank f (elems K), ∅, ofList (env.rank f (elems K)), []⟩).found

theorem finderLoop_eq (env : Env) {f : Fbas} {pot : NodeSet → NodeSet → Bool}
    (hpot : ∀ sel av, hasPotential w f sel av = .ok (pot sel av)) (M : List NodeSet)
    {Ks₀ : List NodeSet} (hKs : IsClusters f Ks₀)
    (hq : ∀ K ∈ Ks₀, ∀ q, findSymmetricClusterInConsensusCluster f K = .ok (some q) →
      toMinimalSplittingSets w q = .ok q.toMinimalSplittingSets)
    (Ks found : List NodeSet) (hsub : ∀ K ∈ Ks, K ∈ Ks₀) :
    minimalSplittingSetsFinderLoop w env f M Ks found =
      .ok (found ++ Ks.flatMap (clusterSplittingWith pot env f M)) := by
  induction Ks generalizing found with
  | nil => simp [minimalSplittingSetsFinderLoop]
  | cons K Ks ih =>
    have hK := hsub K (by simp)
    rw [minimalSplittingSetsFinderLoop, List.flatMap_cons]
    rcases hKs.findSymmetric hK with ⟨q, h1, _, h2, h3⟩ | ⟨h1, _⟩
    · rw [h1, ok_bind]
      dsimp only
      rw [hq K hK q h1, ok_bind, ih _ (fun K hK => hsub K (by simp [hK])), clusterSplittingWith, h1]
      simp
    · rw [h1, ok_bind]
      dsimp only
      rw [msStep_ok hpot, ok_bind, ih _ (fun K hK => hsub K (by simp [hK])), clusterSplittingWith, h1]
      simp

theorem findMinimalSplittingSets_release {size : ℕ} (env env' : Env) {f : Fbas} (hwf : WF f)
    (hf : All (fun q => q.threshold < size ∧ q.validators.length + q.inner.length + 1 < size) f)
    (hsym : ∀ q, SymCluster f q → HalfFits size q) {M : List NodeSet}
    (hM : findMinimalQuorums env' f = .ok M) :
    findMinimalSplittingSets ⟨size, false⟩ env f M = FA.findMinimalSplittingSets env f M := by
  have hKs := consensusClusters_spec env hwf
  let pot := potential ⟨size, false⟩ f
  have hpot : ∀ sel av, hasPotential ⟨size, false⟩ f sel av = .ok (pot sel av) := by
    intro sel av
    obtain ⟨b, hb, _⟩ := hasPotential_release hf sel av
    simp only [pot, potential, hb]
  have hpot' : ∀ sel av, FA.hasPotential f sel av = true → pot sel av = true := by
    intro sel av h
    obtain ⟨b, hb1, hb2⟩ := hasPotential_release hf sel av
    simp only [pot, potential, hb1]
    exact hb2 h
  obtain ⟨M', hM1, hM2, _⟩ := findMinimalQuorums_spec env' hwf
  rw [hM] at hM1
  injection hM1 with hM1
  subst hM1
  have hMq : ∀ Q ∈ M, IsQuorum f Q := fun Q hQ => ((hM2 Q).1 hQ).prop
  have hperm : Permits pot M := fun P hP Q hQ sel av h1 h2 =>
    hpot' sel av (hasPotential_permits hMq P hP Q hQ sel av h1 h2)
  have hloop := finderLoop_eq env hpot M hKs (fun K hK q hs => by
    rcases hKs.findSymmetric hK with ⟨q', h1, _, h2, h3⟩ | ⟨h1, _⟩
    · rw [hs] at h1
      injection h1 with h1
      injection h1 with h1
      subst h1
      obtain ⟨x, hx⟩ := findSymmetric_qset hs
      exact toMinimalSplittingSets_ok (w := ⟨size, false⟩) (hx ▸ hf x)
        (hsym q (hKs.symCluster_of_mem hK h2 h3))
    · rw [hs] at h1; cases h1) (consensusClusters env f) [] (fun _ h => h)
  rw [findMinimalSplittingSets_eq env hwf]
  simp only [findMinimalSplittingSets, findMinimalSets, findSets, minimalSplittingSetsFinder, hloop,
    List.nil_append]
  congr 1
  refine sort_eq_of_perm (flatMap_perm (List.Perm.refl _) (fun K hK => ?_))
  rcases hKs.findSymmetric hK with ⟨q, h3, _⟩ | ⟨h3, _⟩
  · unfold clusterSplitting clusterSplittingWith; rw [h3]
  · unfold clusterSplitting clusterSplittingWith
    rw [h3]
    obtain ⟨hr1, hr2⟩ := rank_elems env f K
    have hnd : ∀ x ∈ (env.rank f (elems K)).toFinset,
        (M.filter (fun Q => decide (x ∈ Q))).Nodup := by
      rw [hr2]
      intro x hx
      exact findMinimalQuorums_filter_nodup env' hwf hM hKs hK h3 hx
    exact (List.perm_ext_iff_of_nodup (removeNonMinimal_nodup _) (removeNonMinimal_nodup _)).2
      (fun S => by
        rw [msStepWith_start M hperm _ hr1 hnd, msStep_start f M hMq _ hr1 hnd])

end FA.Machine
