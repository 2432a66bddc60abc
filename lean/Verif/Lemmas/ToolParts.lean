import Verif.Lemmas.Tool
import Verif.SpecTool

/-!
# Proofs about the parts of the output of the command line tool
-/

namespace FA
open Spec Analysis Tool Props Groupings

/-! ### Printed values -/

/-- The sets are printed as those of the unshrunken result. -/
theorem result_sets {o : Output} {gs : List Grouping} (hg : MadeFrom o.groupings gs o.fbas)
    {r : SetVecResult} {L : List NodeSet} (hr : r.unwrap = .ok L)
    (hK : r.unshrinkTable = none ∨ ∃ K l, r = SetVecResult.new l (some (ShrinkManager.new K)))
    (hL : ∀ S ∈ L, ∀ x ∈ S, x < o.fbas.nodes.length) (name : String) :
    ∃ j, o.result name (.sets r) = .ok [.result name j] ∧
      ShowsSets o.describe o.pretty gs o.fbas L j := by
  unfold Output.result ShowsSets
  cases o.describe with
  | true =>
    have : ∃ j, (Value.sets r).describeJson = .ok j ∧ Summary L j := by
      rcases hK with h | ⟨K, l, rfl⟩
      · obtain ⟨l, t⟩ := r
        dsimp only at h
        subst h
        have e : l = L := Except.ok.inj hr
        subst e
        exact C64_summary l
      · exact C64_summary_shrunken l L K hr
    obtain ⟨j, h1, h2⟩ := this
    exact ⟨j, by rw [if_pos rfl, h1], by rw [if_pos rfl]; exact h2⟩
  | false =>
    simp only [Bool.false_eq_true, ↓reduceIte]
    unfold Output.resultUncondensed
    cases o.pretty with
    | true =>
      obtain ⟨js, h1, h2⟩ := C64_sets_names o.fbas o.groupings gs hg r L hr hL
      simp only [↓reduceIte]
      exact ⟨_, by rw [h1], js, rfl, h2⟩
    | false =>
      obtain ⟨js, h1, h2⟩ := C64_ids r L hr
      simp only [Bool.false_eq_true, ↓reduceIte]
      exact ⟨_, by rw [h1], js, rfl, h2⟩

theorem result_set {o : Output} {gs : List Grouping} (hg : MadeFrom o.groupings gs o.fbas)
    {r : SetResult} (hr : ∀ x ∈ r.unwrap, x < o.fbas.nodes.length) (name : String) :
    ∃ j, o.resultUncondensed name (.set r) = .ok [.result name j] ∧
      ShowsSet o.pretty gs o.fbas r.unwrap j := by
  unfold Output.resultUncondensed ShowsSet
  cases o.pretty with
  | true =>
    obtain ⟨j, h1, h2⟩ := C64_set_names o.fbas o.groupings gs hg r hr
    exact ⟨j, by rw [if_pos rfl, h1], by rw [if_pos rfl]; exact h2⟩
  | false =>
    obtain ⟨⟨j, h1, h2⟩, -⟩ := C64_set r
    refine ⟨j, ?_, ?_⟩
    · simp only [Bool.false_eq_true, ↓reduceIte]; rw [h1]
    · simpa only [Bool.false_eq_true, ↓reduceIte] using h2

/-! ### Merging -/

/-- `M` is the list of sets after merging by group. -/
def MergedSets (g : Option Groupings) (L M : List NodeSet) : Prop :=
  match g with
  | none => M = L
  | some g => g.mergeMinimalNodeSets L = .ok M

theorem mergeSets_spec {f : Fbas} {gs : List Grouping} {g : Option Groupings} (hg : MadeFrom g gs f)
    (he : MembersExist gs f) {r : SetVecResult} {L : List NodeSet} (hr : r.unwrap = .ok L)
    (hK : ∃ K l, r = SetVecResult.new l (some (ShrinkManager.new K)))
    (hL : ∀ S ∈ L, ∀ x ∈ S, x < f.nodes.length) :
    ∃ r' M, mergeSets g r = .ok r' ∧ r'.unwrap = .ok M ∧ MergedSets g L M ∧
      (∀ S ∈ M, ∀ x ∈ S, x < f.nodes.length) ∧
      (r'.unshrinkTable = none ∨ ∃ K l, r' = SetVecResult.new l (some (ShrinkManager.new K))) := by
  rcases hg with ⟨rfl, rfl⟩ | ⟨g, rfl, hg⟩
  · exact ⟨r, L, rfl, hr, rfl, hL, .inr hK⟩
  · have hm := merge_spec hg
    have hms : g.mergeNodeSets L = .ok (L.map (Finset.image (fun x => tailRep x gs x))) :=
      mergeNodeSets_ok (fun S hS x hx => hm x (hL S hS x hx))
    refine ⟨⟨removeNonMinimalNodeSets (L.map (Finset.image (fun x => tailRep x gs x))), none⟩, _, ?_,
      rfl, ?_, fun S hS x hx => ?_, .inl rfl⟩
    · unfold mergeSets SetVecResult.mergedByGroup
      rw [SetVecResult.unshrink_of_unwrap hr]
      dsimp only
      rw [hms]
      rfl
    · show g.mergeMinimalNodeSets L = _
      unfold Groupings.mergeMinimalNodeSets
      rw [hms]
    · rw [(removeNonMinimal_spec _).1] at hS
      obtain ⟨S₀, h1, rfl⟩ := List.mem_map.1 hS.prop
      obtain ⟨x₀, h2, rfl⟩ := Finset.mem_image.1 hx
      exact tailRep_lt he (hL S₀ h1 x₀ h2)

/-! ### Sets -/

section
variable {env : Env} {f fR : Fbas} {pq pb : Params} {h : List Call} {a : Analysis}

/-- The kind of a method that returns sets. -/
def IsMethod (env : Env) (c : Call) (method : Analysis → Except Panic (SetVecResult × Analysis)) : Prop :=
  (∀ a : Analysis, a.call env c = answerSets (method a)) ∧
    (∀ a r a', method a = .ok (r, a') → ∃ l, r = a'.makeShrunkenSetVecResult l) ∧
    (∀ p, ∃ ans, answerOf p c = some ans) ∧ c ≠ .topTier ∧ c ≠ .alternativeCheck

theorem isMethod_minimalQuorums : IsMethod env .minimalQuorums (fun a => a.minimalQuorums env) := by
  refine ⟨fun _ => rfl, fun a r a' h => ?_, fun p => ⟨_, rfl⟩, by simp, by simp⟩
  dsimp only at h
  unfold Analysis.minimalQuorums at h
  split at h
  · cases h
  · cases h; exact ⟨_, rfl⟩

theorem isMethod_minimalBlockingSets :
    IsMethod env .minimalBlockingSets (fun a => a.minimalBlockingSets env) := by
  refine ⟨fun _ => rfl, fun a r a' h => ?_, fun p => ⟨_, rfl⟩, by simp, by simp⟩
  dsimp only at h
  unfold Analysis.minimalBlockingSets at h
  split at h
  · cases h
  · cases h; exact ⟨_, rfl⟩

theorem isMethod_minimalSplittingSets :
    IsMethod env .minimalSplittingSets (fun a => a.minimalSplittingSets env) := by
  refine ⟨fun _ => rfl, fun a r a' h => ?_, fun p => ⟨_, rfl⟩, by simp, by simp⟩
  dsimp only at h
  unfold Analysis.minimalSplittingSets at h
  split at h
  · cases h
  · cases h; exact ⟨_, rfl⟩

theorem unwrap_length {r : SetVecResult} {L : List NodeSet} (h : r.unwrap = .ok L) : r.len = L.length := by
  have := (C35_unwrap r L h).1.length_eq
  exact this

theorem answerSets_ok {x : Except Panic (SetVecResult × Analysis)} {ans : Answer} {a' : Analysis}
    (h : answerSets x = .ok (ans, a')) : ∃ r L, x = .ok (r, a') ∧ r.unwrap = .ok L ∧ ans = .sets L := by
  unfold answerSets at h
  split at h
  · cases h
  next r b =>
    split at h
    · cases h
    next L hL => cases h; exact ⟨r, L, rfl, hL, rfl⟩

theorem After.sets (hwf : WF f) (s : Setting env f fR pq pb) (ha : After env f fR pq pb h a)
    {l L : List NodeSet} (hr : (a.makeShrunkenSetVecResult l).unwrap = .ok L) :
    (∃ K l', a.makeShrunkenSetVecResult l = SetVecResult.new l' (some (ShrinkManager.new K))) ∧
      ∀ S ∈ L, ∀ x ∈ S, x < f.nodes.length := by
  obtain ⟨K, hK, hsm, -⟩ := ha.table hwf s
  have e : a.makeShrunkenSetVecResult l = SetVecResult.new l (some (ShrinkManager.new K)) := by
    unfold makeShrunkenSetVecResult; rw [hsm]
  refine ⟨⟨K, l, e⟩, ?_⟩
  rw [e] at hr
  obtain ⟨h1, rfl⟩ := SetVecResult.ok_subset hr
  intro S hS x hx
  obtain ⟨S₀, h2, rfl⟩ := List.mem_map.1 hS
  obtain ⟨i, hi, rfl⟩ := Finset.mem_image.1 hx
  exact hK _ (un_mem (Finset.mem_range.1 (h1 S₀ h2 hi)))

/-- The part of the output for a method that returns sets. -/
def SetsPart (env : Env) (o : Output) (gs : List Grouping) (h : List Call) (c : Call) (name : String)
    (comment : ℕ → Comment) (lines : List Line) : Prop :=
  ∃ L M j, answerAfter env o.fbas h c = .ok (.sets L) ∧ MergedSets o.groupings L M ∧
    (∀ S ∈ L, ∀ x ∈ S, x < o.fbas.nodes.length) ∧
    ShowsSets o.describe o.pretty gs o.fbas M j ∧
    lines = [.result name j, .duration name] ++ o.comment (comment L.length)

theorem reportSets_spec {o : Output} {gs : List Grouping} (hg : MadeFrom o.groupings gs o.fbas)
    (he : MembersExist gs o.fbas) (hwf : WF o.fbas) (s : Setting env o.fbas fR pq pb)
    (ha : After env o.fbas fR pq pb h a) {c : Call}
    {method : Analysis → Except Panic (SetVecResult × Analysis)} (hm : IsMethod env c method)
    (name : String) (comment : ℕ → Comment) :
    ∃ lines a', reportSets name method comment o a = .ok (lines, a') ∧
      SetsPart env o gs h c name comment lines ∧ After env o.fbas fR pq pb (h ++ [c] ++ [c]) a' := by
  obtain ⟨m1, m2, m3, m4, m5⟩ := hm
  obtain ⟨ans, a₁, h1, h2, h3⟩ := ha.call s m5
  obtain ⟨a₂, h4, h5⟩ := ha.again s m3 m4 h1
  rw [m1] at h1 h4
  obtain ⟨r, L, e1, e2, rfl⟩ := answerSets_ok h1
  obtain ⟨r', L', e3, e4, e5⟩ := answerSets_ok h4
  obtain rfl : L = L' := by cases e5; rfl
  obtain ⟨l, rfl⟩ := m2 _ _ _ e1
  obtain ⟨hK, hL⟩ := h3.sets hwf s e2
  obtain ⟨r₂, M, g1, g2, g3, g4, g5⟩ := mergeSets_spec hg he e2 hK hL
  obtain ⟨j, g6, g7⟩ := result_sets hg g2 g5 g4 name
  refine ⟨[.result name j, .duration name] ++ o.comment (comment L.length), a₂, ?_,
    ⟨L, M, j, h2, g3, hL, g7, rfl⟩, h5⟩
  unfold reportSets Output.timedResult
  simp only [e1, g1, g6, e3, bind, Except.bind, unwrap_length e4]
  rfl

/-! ### Quorum intersection -/

/-- The part of the output for the check of quorum intersection. -/
def IntersectionPart (env : Env) (alternative : Bool) (o : Output) (gs : List Grouping) (h : List Call)
    (lines : List Line) : Prop :=
  if alternative then
    ∃ v w l₂, answerAfter env o.fbas h .alternativeCheck = .ok (.verdict v w) ∧
      (match w with
        | none => l₂ = []
        | some L => ∃ j, ShowsSets o.describe o.pretty gs o.fbas L j ∧
            l₂ = [.result "nonintersecting_quorums" j]) ∧
      lines = o.comment .alternativeCheck ++ [.result "has_quorum_intersection" (.bool v),
        .duration "has_quorum_intersection"] ++ l₂ ++
        o.comment (if v then .allIntersect else .notAllIntersect)
  else
    ∃ v, answerAfter env o.fbas h .hasQuorumIntersection = .ok (.bool v) ∧
      lines = [.result "has_quorum_intersection" (.bool v), .duration "has_quorum_intersection"] ++
        o.comment (if v then .allIntersect else .notAllIntersect)

/-- The calls made by the check. -/
def checkCalls (alternative : Bool) : List Call :=
  if alternative then [.alternativeCheck] else [.hasQuorumIntersection, .hasQuorumIntersection]

theorem timedResult_bool (o : Output) (name : String) (v : Bool) :
    o.timedResult name (.bool v) = .ok [.result name (.bool v), .duration name] := by
  unfold Output.timedResult Output.result Output.resultUncondensed
  cases o.describe <;> cases o.pretty <;> rfl

theorem result_nat (o : Output) (name : String) (n : ℕ) :
    o.result name (.nat n) = .ok [.result name (.nat n)] := by
  unfold Output.result Output.resultUncondensed
  cases o.describe <;> cases o.pretty <;> rfl

/-- The result of the alternative check, before it is unwrapped. -/
theorem alternative_result {a : Analysis} {v : Bool} {w : Option (List NodeSet)} {a' : Analysis}
    (h : a.call env .alternativeCheck = .ok (.verdict v w, a')) :
    (w = none ∧ a.alternativeCheck env = .ok (v, none)) ∨
      ∃ l L, w = some L ∧ a.alternativeCheck env = .ok (v, some (a.makeShrunkenSetVecResult l)) ∧
        (a.makeShrunkenSetVecResult l).unwrap = .ok L := by
  have hshape : ∀ v r, a.alternativeCheck env = .ok (v, some r) → ∃ l, r = a.makeShrunkenSetVecResult l := by
    intro v r h
    unfold Analysis.alternativeCheck at h
    split at h
    · cases h
    · cases h
    · split at h
      · split at h
        · cases h; exact ⟨_, rfl⟩
        · cases h
      · cases h
  unfold Analysis.call at h
  dsimp only at h
  split at h
  · cases h
  next v' h' => cases h; exact .inl ⟨rfl, h'⟩
  next v' r h' =>
    split at h
    · cases h
    next l hl =>
      cases h
      obtain ⟨l', rfl⟩ := hshape _ _ h'
      exact .inr ⟨l', l, rfl, h', hl⟩


theorem reportIntersection_ok {o : Output} {gs : List Grouping} (hg : MadeFrom o.groupings gs o.fbas)
    (hwf : WF o.fbas) (s : Setting env o.fbas fR pq pb)
    (ha : After env o.fbas fR pq pb h a) (alternative : Bool)
    (hq : alternative = true → ∃ ans, answerAfter env o.fbas h .alternativeCheck = .ok ans) :
    ∃ lines a', reportIntersection env alternative o a = .ok (lines, a') ∧
      IntersectionPart env alternative o gs h lines ∧
      After env o.fbas fR pq pb (h ++ checkCalls alternative) a' := by
  cases alternative with
  | true =>
    obtain ⟨ans, hans⟩ := hq rfl
    have hans' := hans
    rw [ha.answer] at hans
    obtain ⟨⟨ans', a'⟩, hc, e⟩ : ∃ x, a.call env .alternativeCheck = .ok x ∧ x.1 = ans := by
      cases hx : a.call env .alternativeCheck with
      | error e => rw [hx] at hans; cases hans
      | ok x => rw [hx] at hans; exact ⟨x, rfl, Except.ok.inj hans⟩
    obtain rfl : ans' = ans := e
    obtain rfl := alternativeCheck_same hc
    have haft := ha.snoc hc ha.reach
    obtain ⟨v, w, rfl⟩ : ∃ v w, ans' = .verdict v w := by
      unfold Analysis.call at hc
      dsimp only at hc
      split at hc
      · cases hc
      · cases hc; exact ⟨_, _, rfl⟩
      · split at hc
        · cases hc
        · cases hc; exact ⟨_, _, rfl⟩
    unfold reportIntersection reportAlternative IntersectionPart checkCalls
    simp only [↓reduceIte, bind, Except.bind]
    rcases alternative_result hc with ⟨rfl, h1⟩ | ⟨l, L, rfl, h1, h2⟩
    · rw [h1]
      simp only [timedResult_bool]
      exact ⟨_, _, rfl, ⟨v, none, [], hans', rfl, rfl⟩, haft⟩
    · obtain ⟨hK, hL⟩ := ha.sets hwf s h2
      obtain ⟨j, g1, g2⟩ := result_sets hg h2 (.inr hK) hL "nonintersecting_quorums"
      rw [h1]
      simp only [timedResult_bool, g1]
      exact ⟨_, _, rfl, ⟨v, some L, _, hans', ⟨j, g2, rfl⟩, rfl⟩, haft⟩
  | false =>
    obtain ⟨ans, a₁, h1, h2, h3⟩ := ha.call s (c := .hasQuorumIntersection) (by simp)
    obtain ⟨a₂, h4, h5⟩ := ha.again s (c := .hasQuorumIntersection) (fun p => ⟨_, rfl⟩) (by simp) h1
    have key : ∀ {b : Analysis} {ans : Answer} {b' : Analysis},
        b.call env .hasQuorumIntersection = .ok (ans, b') →
        ∃ v, ans = .bool v ∧ b.hasQuorumIntersection env = .ok (v, b') := by
      intro b ans b' h
      have h' : (b.hasQuorumIntersection env).map (fun r => (Answer.bool r.1, r.2)) = .ok (ans, b') := h
      cases hx : b.hasQuorumIntersection env with
      | error e => rw [hx] at h'; cases h'
      | ok x =>
        rw [hx] at h'
        obtain ⟨e1, e2⟩ := Prod.mk.inj (Except.ok.inj h')
        exact ⟨x.1, e1.symm, by rw [← e2]⟩
    obtain ⟨v, rfl, g1⟩ := key h1
    obtain ⟨v', e, g2⟩ := key h4
    obtain rfl : v = v' := by cases e; rfl
    unfold reportIntersection IntersectionPart checkCalls
    simp only [Bool.false_eq_true, ↓reduceIte, bind, Except.bind, g1, timedResult_bool, g2]
    refine ⟨_, _, rfl, ⟨v, h2, rfl⟩, ?_⟩
    simpa using h5

/-- If the check panics, the alternative check was used and panicked. -/
theorem reportIntersection_error {o : Output} {e : Panic} 
    (ha : After env o.fbas fR pq pb h a) 
    (hc : answerAfter env o.fbas h .alternativeCheck = .error e)
    (hu : ∀ v r, a.alternativeCheck env = .ok (v, some r) → ∃ L, r.unwrap = .ok L) :
    ∃ e', reportIntersection env true o a = .error e' := by
  rw [ha.answer] at hc
  have : a.alternativeCheck env = .error e := by
    unfold Analysis.call at hc
    dsimp only at hc
    cases hx : a.alternativeCheck env with
    | error e' => rw [hx] at hc; cases hc; rfl
    | ok x =>
      obtain ⟨v, w⟩ := x
      rw [hx] at hc
      cases w with
      | none => cases hc
      | some r =>
        obtain ⟨L, hL⟩ := hu v r hx
        dsimp only at hc
        rw [hL] at hc
        cases hc
  refine ⟨e, ?_⟩
  unfold reportIntersection reportAlternative
  simp only [↓reduceIte, bind, Except.bind, this]

/-! ### Top tier -/

/-- `M` is the set after merging by group. -/
def MergedSet (g : Option Groupings) (S M : NodeSet) : Prop :=
  match g with
  | none => M = S
  | some g => g.mergeNodeSet S = .ok M

/-- The part of the output for the top tier. -/
def TopTierPart (env : Env) (o : Output) (gs : List Grouping) (h : List Call) (lines : List Line) :
    Prop :=
  ∃ T M j, answerAfter env o.fbas h .topTier = .ok (.set T) ∧ MergedSet o.groupings T M ∧
    (∀ x ∈ T, x < o.fbas.nodes.length) ∧ ShowsSet o.pretty gs o.fbas M j ∧
    lines = [.result "top_tier" j] ++ o.comment (.distinctNodes M.card)

theorem reportTopTier_spec {o : Output} {gs : List Grouping} (hg : MadeFrom o.groupings gs o.fbas)
    (he : MembersExist gs o.fbas) (hwf : WF o.fbas) (s : Setting env o.fbas fR pq pb)
    (ha : After env o.fbas fR pq pb h a) :
    ∃ lines a', reportTopTier env o a = .ok (lines, a') ∧ TopTierPart env o gs h lines := by
  obtain ⟨ans, a₁, h1, h2, h3⟩ := ha.call s (c := .topTier) (by simp)
  have h1' : (a.topTier env).map (fun r => (Answer.set r.1.unwrap, r.2)) = .ok (ans, a₁) := h1
  obtain ⟨⟨t, b⟩, hx⟩ : ∃ x, a.topTier env = .ok x := by
    cases hx : a.topTier env with
    | error e => rw [hx] at h1'; cases h1'
    | ok x => exact ⟨x, rfl⟩
  rw [hx] at h1'
  obtain ⟨rfl, rfl⟩ := Prod.mk.inj (Except.ok.inj h1')
  have hT : ∀ x ∈ t.unwrap, x < o.fbas.nodes.length := by
    unfold Analysis.topTier at hx
    split at hx
    · cases hx
    next S a' hS =>
      split at hx
      · cases hx
      next r hr =>
        cases hx
        obtain ⟨K, hK, hsm, -⟩ := h3.table hwf s
        unfold makeShrunkenSetResult SetResult.new at hr
        dsimp only at hr
        split at hr
        · cases hr
        next S' hS' =>
          cases hr
          have hl : unshrinkSets (ShrinkManager.new K).unshrinkTable [S] = .ok [S'] := by
            rw [unshrinkSets, mapE, ← hsm, hS']; rfl
          have hu : (SetVecResult.new [S] (some (ShrinkManager.new K))).unwrap = .ok [S'] := by
            unfold SetVecResult.unwrap SetVecResult.unshrink SetVecResult.new
            simp only [Option.map_some]
            rw [hl]
          obtain ⟨g1, g2⟩ := SetVecResult.ok_subset hu
          intro x hx
          have e : S' = unSet K S := by simpa using g2
          have hx : x ∈ S' := hx
          rw [e] at hx
          obtain ⟨i, hi, rfl⟩ := Finset.mem_image.1 hx
          exact hK _ (un_mem (Finset.mem_range.1 (g1 S (by simp) hi)))
  have hmerge : ∃ r, mergeSet o.groupings t = .ok r ∧ MergedSet o.groupings t.unwrap r.unwrap ∧
      ∀ x ∈ r.unwrap, x < o.fbas.nodes.length := by
    rcases hg with ⟨hn, rfl⟩ | ⟨g, hn, hg⟩
    · rw [hn]; exact ⟨t, rfl, rfl, hT⟩
    · rw [hn]
      have hm := merge_spec hg
      have := mergeNodeSet_ok (g := g) (S := t.nodeSet) (m := fun x => tailRep x gs x)
        (fun x hx => hm x (hT x hx))
      refine ⟨⟨t.nodeSet.image (fun x => tailRep x gs x)⟩, ?_, this, ?_⟩
      · unfold mergeSet SetResult.mergedByGroup
        dsimp only
        rw [this]
      · intro x hx
        obtain ⟨x₀, h2, rfl⟩ := Finset.mem_image.1 hx
        exact tailRep_lt he (hT x₀ h2)
  obtain ⟨r, g1, g2, g3⟩ := hmerge
  obtain ⟨j, g4, g5⟩ := result_set hg g3 "top_tier"
  refine ⟨[.result "top_tier" j] ++ o.comment (.distinctNodes r.unwrap.card), b, ?_,
    ⟨t.unwrap, r.unwrap, j, h2, g2, hT, g5, rfl⟩⟩
  unfold reportTopTier
  simp only [bind, Except.bind, hx, g1, g4]
  rfl

end
/-! ### Symmetric clusters -/

/-- `M` are the quorum sets after merging by group. -/
def MergedQSets (g : Option Groupings) (L M : List QuorumSet) : Prop :=
  match g with
  | none => M = L
  | some g => g.mergeQuorumSets L = .ok M

/-- The part of the output for the symmetric clusters. -/
def ClustersPart (env : Env) (o : Output) (gs : List Grouping) (lines : List Line) : Prop :=
  ∃ L M j, findSymmetricClusters env o.fbas = .ok L ∧ MergedQSets o.groupings L M ∧
    (DisjointGroups gs → ShowsQSets o.pretty gs o.fbas M j) ∧
    lines = [.result "symmetric_clusters" j, .duration "symmetric_clusters"] ++ o.comment .newline

theorem reportSymmetricClusters_spec {env : Env} {o : Output} {gs : List Grouping}
    (hg : MadeFrom o.groupings gs o.fbas) (he : MembersExist gs o.fbas) (hwf : WF o.fbas)
    {a : Analysis} (ha : a.fbasOriginal = o.fbas) :
    ∃ lines, reportSymmetricClusters env o a = .ok lines ∧ ClustersPart env o gs lines := by
  obtain ⟨L, hL, hL2, -⟩ := C22_symmetric_clusters env o.fbas hwf
  have hlt : ∀ q ∈ L, ∀ x, Mentions q x → x < o.fbas.nodes.length := by
    intro q hq x hx
    obtain ⟨n, hn, -⟩ := ((hL2 q).1 hq).1 x hx
    exact (List.getElem?_eq_some_iff.1 hn).1
  obtain ⟨M, h1, h2, h3⟩ : ∃ M, mergeClusters o.groupings L = .ok M ∧ MergedQSets o.groupings L M ∧
      ∀ q ∈ M, (∀ x, Mentions q x → x < o.fbas.nodes.length) ∧
        ∃ p, q.intoPretty o.fbas o.groupings = .ok p ∧
          (DisjointGroups gs → ShowsQSet (ShownAs gs o.fbas) q p) := by
    have hp : ∀ q : QuorumSet, (∀ x, Mentions q x → x < o.fbas.nodes.length) →
        ∃ p, q.intoPretty o.fbas o.groupings = .ok p := fun q hq => prettyLoop_total hg he _ q hq le_rfl
    rcases hg with ⟨hn, rfl⟩ | ⟨g, hn, hg⟩
    · rw [hn]
      refine ⟨L, rfl, rfl, fun q hq => ⟨hlt q hq, ?_⟩⟩
      obtain ⟨p, g1, g2, -⟩ := C64_quorum_set_keys o.fbas q (hlt q hq)
      exact ⟨p, g1, fun _ => g2⟩
    · rw [hn] at hp ⊢
      have hm : ∀ q ∈ L, g.mergeQuorumSet q = .ok (mergeQ (fun x => tailRep x gs x) q) := fun q hq =>
        mergeQuorumSet_ok q (fun x hx => merge_spec hg x (hlt q hq x hx))
      have hM : g.mergeQuorumSets L = .ok (L.map (mergeQ (fun x => tailRep x gs x))) := by
        rw [mergeQuorumSets_eq, mapE_ok hm]
      refine ⟨_, hM, hM, fun q hq => ?_⟩
      obtain ⟨q₀, hq₀, rfl⟩ := List.mem_map.1 hq
      have hlt' : ∀ x, Mentions (mergeQ (fun x => tailRep x gs x) q₀) x →
          x < o.fbas.nodes.length := by
        intro x hx
        obtain ⟨y, hy, rfl⟩ := mentions_mergeQ _ q₀ x hx
        exact tailRep_lt he (hlt q₀ hq₀ y hy)
      refine ⟨hlt', ?_⟩
      obtain ⟨p, hp⟩ := hp _ hlt'
      refine ⟨p, hp, fun hd => ?_⟩
      obtain ⟨q', p', g1, g2, g3, -⟩ := C64_quorum_set_groups_partial gs o.fbas g hg hd he _ hlt'
      rw [hp] at g2
      obtain rfl := Except.ok.inj g2
      obtain ⟨q'', e1, e2⟩ := C64_merge_idempotent gs o.fbas g hg hd he q₀ (hlt q₀ hq₀)
      rw [hm q₀ hq₀] at e1
      obtain rfl := Except.ok.inj e1
      rw [e2] at g1
      obtain rfl := Except.ok.inj g1
      exact g3
  have hj : ∃ j, (if o.pretty then (Value.qsets M).prettyJson o.fbas o.groupings
      else (Value.qsets M).idJson) = .ok j ∧ (DisjointGroups gs → ShowsQSets o.pretty gs o.fbas M j) := by
    unfold ShowsQSets
    cases o.pretty with
    | false => exact ⟨_, rfl, fun _ => ⟨_, rfl, (forall₂_listsQSet _ _).2 rfl⟩⟩
    | true =>
      obtain ⟨ps, g1, g2⟩ := mapE_forall₂ (R := fun q p => DisjointGroups gs →
        ShowsQSet (ShownAs gs o.fbas) q p) (fun q hq => (h3 q hq).2)
      refine ⟨.arr (ps.map RawQuorumSet.toJson), ?_, fun hd => ⟨_, rfl, ?_⟩⟩
      · simp only [↓reduceIte]
        unfold Value.prettyJson
        dsimp only
        rw [g1]
      · simp only [↓reduceIte]
        rw [List.forall₂_map_right_iff]
        exact g2.imp fun q p h => ⟨p, h hd, rfl⟩
  obtain ⟨j, g1, g2⟩ := hj
  refine ⟨_, ?_, L, M, j, hL, h2, g2, rfl⟩
  unfold reportSymmetricClusters Analysis.symmetricClusters Output.timedResult Output.result
    Output.resultUncondensed
  simp only [bind, Except.bind, ha, hL, h1, Bool.false_eq_true, ↓reduceIte]
  rw [g1]
  rfl

/-! ### Overview -/

/-- The part of the output with the number of nodes. -/
def OverviewPart (o : Output) (lines : List Line) : Prop :=
  match o.groupings with
  | none => lines = [.result "nodes_total" (.nat o.fbas.nodes.length)]
  | some g => ∃ M, g.mergeNodeSet (Finset.range o.fbas.nodes.length) = .ok M ∧
      lines = [.result "nodes_total" (.nat o.fbas.nodes.length),
        .result "nodes_total_merged" (.nat M.card)] ++ o.comment .countedAsOne

theorem reportOverview_spec {o : Output} {gs : List Grouping} (hg : MadeFrom o.groupings gs o.fbas)
    {a : Analysis} (ha : a.fbasOriginal = o.fbas) :
    ∃ lines, reportOverview o a = .ok lines ∧ OverviewPart o lines := by
  have hall : a.allNodes = .ok ⟨Finset.range o.fbas.nodes.length⟩ := by
    unfold Analysis.allNodes SetResult.new
    rw [ha]
    rfl
  have hlen : (SetResult.mk (Finset.range o.fbas.nodes.length)).len = o.fbas.nodes.length := by
    unfold SetResult.len
    exact Finset.card_range _
  unfold reportOverview OverviewPart
  simp only [bind, Except.bind, hall, hlen, result_nat]
  rcases hg with ⟨hn, rfl⟩ | ⟨g, hn, hg⟩
  · rw [hn]
    exact ⟨_, rfl, rfl⟩
  · rw [hn]
    have := mergeNodeSet_ok (g := g) (S := Finset.range o.fbas.nodes.length)
      (m := fun x => tailRep x gs x) (fun x hx => merge_spec hg x (Finset.mem_range.1 hx))
    unfold SetResult.mergedByGroup
    simp only [this]
    exact ⟨_, rfl, _, rfl, rfl⟩

/-! ### All parts -/

/-- The calls made for the minimal quorums. -/
def callsQ (opts : Options) : List Call :=
  if opts.todos.1 then [.minimalQuorums, .minimalQuorums] else []
/-- ... and for the check of quorum intersection. -/
def callsC (opts : Options) : List Call :=
  callsQ opts ++ if opts.dontCheck then [] else checkCalls opts.alternativeCheck
/-- ... and for the minimal blocking sets. -/
def callsB (opts : Options) : List Call :=
  callsC opts ++ if opts.todos.2.1 then [.minimalBlockingSets, .minimalBlockingSets] else []
/-- ... and for the minimal splitting sets. -/
def callsS (opts : Options) : List Call :=
  callsB opts ++ if opts.todos.2.2 then [.minimalSplittingSets, .minimalSplittingSets] else []

/-- An optional part. -/
def Opt (b : Bool) (P : List Line → Prop) (lines : List Line) : Prop :=
  if b then P lines else lines = []

/-- The whole output after loading. -/
def Printed (env : Env) (opts : Options) (o : Output) (gs : List Grouping) (lines : List Line) : Prop :=
  ∃ l₁ l₂ l₃ l₄ l₅ l₆ l₇, lines = o.init ++ l₁ ++ o.comment .newline ++ l₂ ++ l₃ ++ l₄ ++ l₅ ++ l₆ ++ l₇ ∧
    OverviewPart o l₁ ∧ ClustersPart env o gs l₂ ∧
    Opt opts.todos.1 (SetsPart env o gs [] .minimalQuorums "minimal_quorums" .foundQuorums) l₃ ∧
    Opt (!opts.dontCheck) (IntersectionPart env opts.alternativeCheck o gs (callsQ opts)) l₄ ∧
    Opt opts.todos.2.1 (SetsPart env o gs (callsC opts) .minimalBlockingSets "minimal_blocking_sets"
      .foundBlockingSets) l₅ ∧
    Opt opts.todos.2.2 (SetsPart env o gs (callsB opts) .minimalSplittingSets "minimal_splitting_sets"
      .foundSplittingSets) l₆ ∧
    Opt (opts.todos.1 || opts.todos.2.1 || opts.todos.2.2) (TopTierPart env o gs (callsS opts)) l₇

theorem optional_spec {env : Env} {f fR : Fbas} {pq pb : Params} {h hc : List Call} {a : Analysis}
    {b : Bool} {part : Analysis → Except Panic (List Line × Analysis)} {P : List Line → Prop}
    (ha : After env f fR pq pb h a)
    (hp : b = true → ∃ lines a', part a = .ok (lines, a') ∧ P lines ∧
      After env f fR pq pb (h ++ hc) a') :
    ∃ lines a', Tool.optional b part a = .ok (lines, a') ∧ Opt b P lines ∧
      After env f fR pq pb (h ++ if b then hc else []) a' := by
  unfold Tool.optional Opt
  cases b with
  | false => exact ⟨[], a, rfl, rfl, by simpa using ha⟩
  | true => exact hp rfl

theorem After.original {env : Env} {f fR : Fbas} {pq pb : Params} {h : List Call} {a : Analysis}
    (ha : After env f fR pq pb h a) : a.fbasOriginal = f := ha.reach.orig

theorem analyze_ok {env : Env} {opts : Options} {o : Output} {gs : List Grouping}
    (hg : MadeFrom o.groupings gs o.fbas) (he : MembersExist gs o.fbas) (hwf : WF o.fbas)
    (hq : opts.dontCheck = false → opts.alternativeCheck = true → ∃ ans,
      answerAfter env o.fbas (callsQ opts) .alternativeCheck = .ok ans) :
    ∃ lines, analyze env opts o = .ok lines ∧ Printed env opts o gs lines := by
  obtain ⟨fR, pq, pb, a, s, hnew, hst⟩ := exists_setting env o.fbas
  have ha : After env o.fbas fR pq pb [] a := .new hnew hst
  obtain ⟨l₁, e1, p1⟩ := reportOverview_spec hg ha.original
  obtain ⟨l₂, e2, p2⟩ := reportSymmetricClusters_spec (env := env) hg he hwf ha.original
  obtain ⟨l₃, a₃, e3, p3, ha3⟩ := optional_spec (b := opts.todos.1) ha
    (hc := [.minimalQuorums, .minimalQuorums])
    (fun _ => by
      obtain ⟨l, a', g1, g2, g3⟩ := reportSets_spec hg he hwf s ha isMethod_minimalQuorums
        "minimal_quorums" .foundQuorums
      exact ⟨l, a', g1, g2, g3⟩)
  rw [List.nil_append] at ha3
  change After env o.fbas fR pq pb (callsQ opts) a₃ at ha3
  obtain ⟨l₄, a₄, e4, p4, ha4⟩ := optional_spec (b := !opts.dontCheck) ha3
    (hc := checkCalls opts.alternativeCheck)
    (fun hb => reportIntersection_ok hg hwf s ha3 opts.alternativeCheck
      (fun halt => hq (by simpa using hb) halt))
  have ha4 : After env o.fbas fR pq pb (callsC opts) a₄ := by
    unfold callsC
    cases hd : opts.dontCheck <;> simpa [hd] using ha4
  obtain ⟨l₅, a₅, e5, p5, ha5⟩ := optional_spec (b := opts.todos.2.1) ha4
    (hc := [.minimalBlockingSets, .minimalBlockingSets])
    (fun _ => by
      obtain ⟨l, a', g1, g2, g3⟩ := reportSets_spec hg he hwf s ha4 isMethod_minimalBlockingSets
        "minimal_blocking_sets" .foundBlockingSets
      exact ⟨l, a', g1, g2, by simpa using g3⟩)
  change After env o.fbas fR pq pb (callsB opts) a₅ at ha5
  obtain ⟨l₆, a₆, e6, p6, ha6⟩ := optional_spec (b := opts.todos.2.2) ha5
    (hc := [.minimalSplittingSets, .minimalSplittingSets])
    (fun _ => by
      obtain ⟨l, a', g1, g2, g3⟩ := reportSets_spec hg he hwf s ha5 isMethod_minimalSplittingSets
        "minimal_splitting_sets" .foundSplittingSets
      exact ⟨l, a', g1, g2, by simpa using g3⟩)
  change After env o.fbas fR pq pb (callsS opts) a₆ at ha6
  obtain ⟨l₇, a₇, e7, p7⟩ : ∃ lines a', Tool.optional (opts.todos.1 || opts.todos.2.1 || opts.todos.2.2)
      (reportTopTier env o) a₆ = .ok (lines, a') ∧
      Opt (opts.todos.1 || opts.todos.2.1 || opts.todos.2.2) (TopTierPart env o gs (callsS opts)) lines := by
    unfold Tool.optional Opt
    cases (opts.todos.1 || opts.todos.2.1 || opts.todos.2.2) with
    | false => exact ⟨[], a₆, rfl, rfl⟩
    | true => exact reportTopTier_spec hg he hwf s ha6
  refine ⟨_, ?_, l₁, l₂, l₃, l₄, l₅, l₆, l₇, rfl, p1, p2, p3, p4, p5, p6, p7⟩
  unfold analyze
  simp only [bind, Except.bind, hnew, e1, e2]
  rw [show opts.todos = (opts.todos.1, opts.todos.2.1, opts.todos.2.2) from rfl]
  simp only [e3, e4, e5, e6, e7]

theorem analyze_error {env : Env} {opts : Options} {o : Output} {gs : List Grouping}
    (hg : MadeFrom o.groupings gs o.fbas) (he : MembersExist gs o.fbas) (hwf : WF o.fbas)
    (hd : opts.dontCheck = false) (halt : opts.alternativeCheck = true)
    (hq : ¬ ∃ Q, IsQuorum o.fbas Q) : analyze env opts o = .error .assertion := by
  obtain ⟨fR, pq, pb, a, s, hnew, hst⟩ := exists_setting env o.fbas
  have ha : After env o.fbas fR pq pb [] a := .new hnew hst
  obtain ⟨l₁, e1, p1⟩ := reportOverview_spec hg ha.original
  obtain ⟨l₂, e2, p2⟩ := reportSymmetricClusters_spec (env := env) hg he hwf ha.original
  obtain ⟨l₃, a₃, e3, p3, ha3⟩ := optional_spec (b := opts.todos.1) ha
    (hc := [.minimalQuorums, .minimalQuorums])
    (fun _ => by
      obtain ⟨l, a', g1, g2, g3⟩ := reportSets_spec hg he hwf s ha isMethod_minimalQuorums
        "minimal_quorums" .foundQuorums
      exact ⟨l, a', g1, g2, g3⟩)
  have e4 : a₃.alternativeCheck env = .error .assertion := by
    obtain ⟨K, hK, hsm, his⟩ := ha3.table hwf s
    rcases findNonintersectingQuorums_spec env his.wf with ⟨h1, h2⟩ | ⟨L, h1, h2, h3, h4⟩ | ⟨⟨Q, h1⟩, h2, h3⟩
    · unfold Analysis.alternativeCheck
      rw [h2]
    · obtain ⟨Q, l, rfl⟩ := List.length_pos_iff_exists_cons.1 (Nat.lt_of_lt_of_le Nat.zero_lt_two h2)
      exact absurd ⟨_, (his.isQuorum (his.quorum_subset (h4 Q List.mem_cons_self))).1 (h4 Q List.mem_cons_self)⟩ hq
    · exact absurd ⟨_, (his.isQuorum (his.quorum_subset h1)).1 h1⟩ hq
  unfold analyze
  simp only [bind, Except.bind, hnew, e1, e2]
  rw [show opts.todos = (opts.todos.1, opts.todos.2.1, opts.todos.2.2) from rfl]
  simp only [e3]
  simp only [Tool.optional, hd, halt, reportIntersection, reportAlternative, bind, Except.bind, e4,
    Bool.not_false, ↓reduceIte]

end FA
