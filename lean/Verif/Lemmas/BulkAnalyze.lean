import Verif.Lemmas.ToolRun
import Verif.SpecBulkAnalyze

/-!
# Proofs about the bulk analyzer
-/

namespace FA
open Spec Analysis Tool Props Groupings Bulk

/-! ### Sizes -/

theorem sizes_of_unwrap {r : SetVecResult} {L : List NodeSet} (hr : r.unwrap = .ok L)
    (hK : r.unshrinkTable = none ∨ ∃ K l, r = SetVecResult.new l (some (ShrinkManager.new K))) :
    Sizes L r.min r.max r.mean := by
  have key : ∀ L : List NodeSet, Sizes L (SetVecResult.new L none).min (SetVecResult.new L none).max
      (SetVecResult.new L none).mean := by
    intro L
    obtain ⟨-, -, -, h1, h2, h3, h4⟩ := C34_statistics (SetVecResult.new L none)
    exact ⟨h1, h2, h3, h4⟩
  rcases hK with h | ⟨K, l, rfl⟩
  · obtain ⟨l, t⟩ := r
    dsimp only at h
    subst h
    have e : l = L := Except.ok.inj hr
    subst e
    exact key l
  · obtain ⟨-, -, -, h1, h2, h3, -⟩ := C34_unshrink l L K hr
    rw [h1, h2, h3]
    exact key L

/-! ### The state of the `Analysis` object -/

section
variable {env : Env} {f fR : Fbas} {pq pb : Params} {a : Analysis}

/-- The object after minimal quorums have been computed first. -/
structure Ready (env : Env) (f fR : Fbas) (pq pb : Params) (a : Analysis) : Prop where
  at' : At env f pq a
  mq : a.mq ≠ none
  after : ∃ h, After env f fR pq pb h a

theorem Ready.call (s : Setting env f fR pq pb) (h : Ready env f fR pq pb a) {c : Call} {ans : Answer}
    (hans : answerOf pq c = some ans) :
    ∃ a', a.call env c = .ok (ans, a') ∧ Ready env f fR pq pb a' := by
  obtain ⟨a', h1, h2, h3 | ⟨-, h3, -⟩⟩ := h.at'.call s.hq.good hans
  · obtain ⟨hs, h4⟩ := h.after
    exact ⟨a', h3, h1, h2 h.mq, _, h4.snoc h3 (.inr (.inl ⟨h1, h2 h.mq⟩))⟩
  · exact absurd h3 h.mq

theorem Ready.sets (hwf : WF f) (s : Setting env f fR pq pb) (h : Ready env f fR pq pb a) {c : Call}
    {method : Analysis → Except Panic (SetVecResult × Analysis)} (hm : IsMethod env c method) :
    ∃ r a' L, method a = .ok (r, a') ∧ answerOf pq c = some (.sets L) ∧ r.unwrap = .ok L ∧
      (∃ K l, r = SetVecResult.new l (some (ShrinkManager.new K))) ∧
      (∀ S ∈ L, ∀ x ∈ S, x < f.nodes.length) ∧ Ready env f fR pq pb a' := by
  obtain ⟨m1, m2, m3, m4, m5⟩ := hm
  obtain ⟨ans, hans⟩ := m3 pq
  obtain ⟨a', h1, h2⟩ := h.call s hans
  rw [m1] at h1
  obtain ⟨r, L, e1, e2, rfl⟩ := answerSets_ok h1
  obtain ⟨l, rfl⟩ := m2 _ _ _ e1
  obtain ⟨hs, h3⟩ := h2.after
  obtain ⟨hK, hL⟩ := h3.sets hwf s e2
  exact ⟨_, a', L, e1, hans, e2, hK, hL, h2⟩

theorem Ready.top (s : Setting env f fR pq pb) (h : Ready env f fR pq pb a) :
    ∃ t a', a.topTier env = .ok (t, a') ∧ answerOf pq .topTier = some (.set t.unwrap) ∧
      Ready env f fR pq pb a' := by
  obtain ⟨a', h1, h2⟩ := h.call s (c := .topTier) rfl
  have h1' : (a.topTier env).map (fun r => (Answer.set r.1.unwrap, r.2)) = .ok (_, a') := h1
  cases hx : a.topTier env with
  | error e => rw [hx] at h1'; cases h1'
  | ok x =>
    rw [hx] at h1'
    obtain ⟨e1, rfl⟩ := Prod.mk.inj (Except.ok.inj h1')
    refine ⟨x.1, x.2, rfl, ?_, h2⟩
    rw [e1]; rfl

theorem Ready.intersection (s : Setting env f fR pq pb) (h : Ready env f fR pq pb a) :
    ∃ v a', a.hasQuorumIntersection env = .ok (v, a') ∧
      answerOf pq .hasQuorumIntersection = some (.bool v) ∧ Ready env f fR pq pb a' := by
  obtain ⟨a', h1, h2⟩ := h.call s (c := .hasQuorumIntersection) rfl
  have h1' : (a.hasQuorumIntersection env).map (fun r => (Answer.bool r.1, r.2)) = .ok (_, a') := h1
  cases hx : a.hasQuorumIntersection env with
  | error e => rw [hx] at h1'; cases h1'
  | ok x =>
    rw [hx] at h1'
    obtain ⟨e1, rfl⟩ := Prod.mk.inj (Except.ok.inj h1')
    refine ⟨x.1, x.2, rfl, ?_, h2⟩
    rw [e1]; rfl

/-- The values computed by an object. -/
structure Values (env : Env) (f : Fbas) (v : Bool) (T : NodeSet) (Q B S : List NodeSet) : Prop where
  hqi : answerAfter env f [.minimalQuorums] .hasQuorumIntersection = .ok (.bool v)
  top : answerAfter env f [.minimalQuorums] .topTier = .ok (.set T)
  quorums : answerAfter env f [] .minimalQuorums = .ok (.sets Q)
  blocking : answerAfter env f [.minimalQuorums] .minimalBlockingSets = .ok (.sets B)
  splitting : answerAfter env f [.minimalQuorums] .minimalSplittingSets = .ok (.sets S)
  topLt : ∀ x ∈ T, x < f.nodes.length
  quorumsLt : ∀ S ∈ Q, ∀ x ∈ S, x < f.nodes.length
  blockingLt : ∀ S ∈ B, ∀ x ∈ S, x < f.nodes.length
  splittingLt : ∀ V ∈ S, ∀ x ∈ V, x < f.nodes.length

/-- What the object answers. -/
structure Answers (pq : Params) (v : Bool) (T : NodeSet) (Q B S : List NodeSet) : Prop where
  hqi : answerOf pq .hasQuorumIntersection = some (.bool v)
  top : answerOf pq .topTier = some (.set T)
  quorums : answerOf pq .minimalQuorums = some (.sets Q)
  blocking : answerOf pq .minimalBlockingSets = some (.sets B)
  splitting : answerOf pq .minimalSplittingSets = some (.sets S)

/-- The first call. -/
theorem ready_first (hwf : WF f) (s : Setting env f fR pq pb) (hn : Analysis.new env f = .ok a)
    (hs : Start env f fR a) : ∃ r a' v T Q B S, a.minimalQuorums env = .ok (r, a') ∧
      r.unwrap = .ok Q ∧ (∃ K l, r = SetVecResult.new l (some (ShrinkManager.new K))) ∧
      Ready env f fR pq pb a' ∧ Answers pq v T Q B S ∧ Values env f v T Q B S := by
  have hb : Call.minimalQuorums ≠ .minimalBlockingSets := by simp
  obtain ⟨a', h1, h2, h3⟩ := hs.call s.hR s.hq (c := .minimalQuorums) rfl hb
  have ha : After env f fR pq pb [.minimalQuorums] a' :=
    (After.new hn hs (pq := pq) (pb := pb)).snoc h3 (.inr (.inl ⟨h1, h2⟩))
  have hr : Ready env f fR pq pb a' := ⟨h1, h2, _, ha⟩
  have ans : ∀ {c ans}, answerOf pq c = some ans →
      answerAfter env f [.minimalQuorums] c = .ok ans := by
    intro c ans hans
    obtain ⟨a'', h4, -⟩ := hr.call s hans
    rw [ha.answer, h4]; rfl
  have h3' := h3
  rw [show a.call env .minimalQuorums = answerSets (a.minimalQuorums env) from rfl] at h3
  obtain ⟨r, Q, e1, e2, e3⟩ := answerSets_ok h3
  obtain ⟨l, rfl⟩ := isMethod_minimalQuorums.2.1 _ _ _ e1
  obtain ⟨hK, hL⟩ := ha.sets hwf s e2
  obtain ⟨-, -, B, -, b1, -, -, b2, -⟩ := hr.sets hwf s isMethod_minimalBlockingSets
  obtain ⟨-, -, S, -, s1, -, -, s2, -⟩ := hr.sets hwf s isMethod_minimalSplittingSets
  obtain ⟨v, -, -, v1, -⟩ := hr.intersection s
  obtain ⟨t, -, -, t1, -⟩ := hr.top s
  have hQ : Q = pq.Q.map (unSet pq.K) := by cases e3; rfl
  refine ⟨_, a', v, t.unwrap, Q, B, S, e1, e2, hK, hr, ⟨v1, t1, by rw [hQ]; rfl, b1, s1⟩,
    ⟨ans v1, ans t1, ?_, ans b1, ans s1, ?_, hL, b2, s2⟩⟩
  · rw [(After.new hn hs (pq := pq) (pb := pb)).answer, h3', e3]; rfl
  · intro x hx
    have ht : t.unwrap = unSet pq.K (involvedNodes pq.Q) := by
      have := t1; simp only [answerOf, Option.some.injEq, Answer.set.injEq] at this; exact this.symm
    rw [ht] at hx
    obtain ⟨i, hi, rfl⟩ := Finset.mem_image.1 hx
    rw [involvedNodes, mem_unionAll] at hi
    obtain ⟨S, hS, hi⟩ := hi
    exact hL (unSet pq.K S) (by rw [hQ]; exact List.mem_map_of_mem hS) _ (Finset.mem_image_of_mem _ hi)

/-! ### Columns -/

/-- The columns hold what is computed from the values after merging. -/
def Filled (g : Option Groupings) (T : NodeSet) (Q B S : List NodeSet) (c : Columns) : Prop :=
  ∃ T' Q' B' S', MergedSet g T T' ∧ MergedSets g Q Q' ∧ MergedSets g B B' ∧ MergedSets g S S' ∧
    c.topTierSize = some T'.card ∧ ShowsSizes Q' c.mq ∧ ShowsSizes B' c.mbs ∧ ShowsSizes S' c.mss

theorem mergeFix_spec {gs : List Grouping} {g : Groupings} (hg : MadeFrom (some g) gs f)
    (he : MembersExist gs f) {r : SetVecResult} {L : List NodeSet} (hr : r.unwrap = .ok L)
    (hK : ∃ K l, r = SetVecResult.new l (some (ShrinkManager.new K)))
    (hL : ∀ S ∈ L, ∀ x ∈ S, x < f.nodes.length) :
    ∃ c M, mergeFix g r = .ok c ∧ MergedSets (some g) L M ∧ ShowsSizes M c := by
  obtain ⟨r', M, h1, h2, h3, -, h5⟩ := mergeSets_spec hg he hr hK hL
  unfold mergeSets at h1
  dsimp only at h1
  split at h1
  · cases h1
  next m hm =>
    cases h1
    refine ⟨_, M, ?_, h3, _, _, _, rfl, sizes_of_unwrap h2 h5⟩
    unfold mergeFix
    rw [hm]
    rfl

theorem mergeTop_spec {gs : List Grouping} {g : Groupings} (hg : MadeFrom (some g) gs f)
    {t : SetResult} (hT : ∀ x ∈ t.unwrap, x < f.nodes.length) :
    ∃ t', t.mergedByGroup g = .ok t' ∧ MergedSet (some g) t.unwrap t'.unwrap := by
  rcases hg with ⟨hn, -⟩ | ⟨g', hn, hg⟩
  · cases hn
  · cases hn
    have hm := merge_spec hg
    have := mergeNodeSet_ok (g := g) (S := t.nodeSet) (m := fun x => tailRep x gs x)
      (fun x hx => hm x (hT x hx))
    refine ⟨⟨t.nodeSet.image (fun x => tailRep x gs x)⟩, ?_, this⟩
    unfold SetResult.mergedByGroup
    rw [this]

/-- The columns in a result of `maybe_merge_sets`. -/
def AnalysisResults.columns (r : AnalysisResults) : Columns := ⟨r.1, r.2.1, r.2.2.1, r.2.2.2⟩

theorem maybeMergeSets_spec (hwf : WF f) (s : Setting env f fR pq pb) (h : Ready env f fR pq pb a)
    {v : Bool} {T : NodeSet} {Q B S : List NodeSet} (hans : Answers pq v T Q B S)
    (hT : ∀ x ∈ T, x < f.nodes.length) {gs : List Grouping} {g : Option Groupings} (hg : MadeFrom g gs f)
    (he : MembersExist gs f) :
    ∃ r a', maybeMergeSets env a g = .ok (r, a') ∧ Ready env f fR pq pb a' ∧
      (g = none → AnalysisResults.columns r = .absent) ∧
      (g ≠ none → Filled g T Q B S (AnalysisResults.columns r)) := by
  cases g with
  | none => exact ⟨_, a, rfl, h, fun _ => rfl, by simp⟩
  | some g =>
    obtain ⟨t, a₁, t1, t2, h1⟩ := h.top s
    obtain rfl : T = t.unwrap := by
      have := hans.top; rw [t2] at this; simpa using this.symm
    obtain ⟨q, a₂, Q₂, q1, q2, q3, q4, q5, h2⟩ := h1.sets hwf s isMethod_minimalQuorums
    obtain rfl : Q = Q₂ := by
      have := hans.quorums; rw [q2] at this; simpa using this.symm
    obtain ⟨b, a₃, B₂, b1, b2, b3, b4, b5, h3⟩ := h2.sets hwf s isMethod_minimalBlockingSets
    obtain rfl : B = B₂ := by
      have := hans.blocking; rw [b2] at this; simpa using this.symm
    obtain ⟨p, a₄, S₂, p1, p2, p3, p4, p5, h4⟩ := h3.sets hwf s isMethod_minimalSplittingSets
    obtain rfl : S = S₂ := by
      have := hans.splitting; rw [p2] at this; simpa using this.symm
    obtain ⟨t', t3, t4⟩ := mergeTop_spec hg hT
    obtain ⟨cq, Q', q6, q7, q8⟩ := mergeFix_spec hg he q3 q4 q5
    obtain ⟨cb, B', b6, b7, b8⟩ := mergeFix_spec hg he b3 b4 b5
    obtain ⟨cs, S', p6, p7, p8⟩ := mergeFix_spec hg he p3 p4 p5
    refine ⟨(some t'.len, cb, cs, cq), a₄, ?_, h4, by simp,
      fun _ => ⟨t'.unwrap, Q', B', S', t4, q7, b7, p7, rfl, q8, b8, p8⟩⟩
    unfold maybeMergeSets
    simp only [t1, t3, q1, q6, b1, b6, p1, p6, bind, Except.bind]

/-! ### Whole analyses -/

/-- The groups that are loaded for the columns. -/
def loadKind (order : List String → List String) (nodes : Json) (organizations : Option Json) (f : Fbas) :
    Kind → Except Panic (Option Groupings)
  | .nodes => .ok none
  | .orgs => maybeLoadOrganizations organizations f
  | .isps => maybeLoadIsps order nodes f
  | .ctries => maybeLoadCountries order nodes f

theorem toStandardForm_ok (env : Env) (f : Fbas) : ∃ g, f.toStandardForm env = .ok g := by
  obtain ⟨f', h1, -⟩ := f.shrunken_ok (f.relevantNodes env)
  unfold Fbas.toStandardForm
  rw [h1]
  exact ⟨_, rfl⟩

theorem analyze_ok' {order : List String → List String} {hash : Json → String} {label : Text}
    {nodes : Json} {organizations : Option Json} (hwf : WF f) (hf : Fbas.fromJson nodes = .ok f)
    {g : Kind → Option Groupings} (hl : ∀ k, loadKind order nodes organizations f k = .ok (g k))
    {gs : Kind → List Grouping} (hg : ∀ k, MadeFrom (g k) (gs k) f) (he : ∀ k, MembersExist (gs k) f) :
    ∃ d v T Q B S, Bulk.analyze env order hash label nodes organizations = .ok d ∧ Values env f v T Q B S ∧
      d.label = label ∧ d.hasQuorumIntersection = v ∧
      (∀ k, k ≠ .nodes → g k = none → columns d k = .absent) ∧
      (∀ k, k = .nodes ∨ g k ≠ none → Filled (g k) T Q B S (columns d k)) ∧
      ∃ sf, f.toStandardForm env = .ok sf ∧ d.standardFormHash = hash sf.toJson := by
  obtain ⟨fR, pq, pb, a, s, hn, hst⟩ := exists_setting env f
  obtain ⟨q, a₁, v, T, Q, B, S, q1, q2, q3, r1, hans, hv⟩ := ready_first hwf s hn hst
  obtain ⟨v', a₂, v1, v2, r2⟩ := r1.intersection s
  obtain rfl : v = v' := by have := hans.hqi; rw [v2] at this; simpa using this.symm
  obtain ⟨t, a₃, t1, t2, r3⟩ := r2.top s
  obtain rfl : T = t.unwrap := by have := hans.top; rw [t2] at this; simpa using this.symm
  obtain ⟨b, a₄, B', b1, b2, b3, b4, -, r4⟩ := r3.sets hwf s isMethod_minimalBlockingSets
  obtain rfl : B = B' := by have := hans.blocking; rw [b2] at this; simpa using this.symm
  obtain ⟨p, a₅, S', p1, p2, p3, p4, -, r5⟩ := r4.sets hwf s isMethod_minimalSplittingSets
  obtain rfl : S = S' := by have := hans.splitting; rw [p2] at this; simpa using this.symm
  obtain ⟨c1, a₆, o1, r6, o2, o3⟩ := maybeMergeSets_spec hwf s r5 hans hv.topLt (hg .orgs) (he .orgs)
  obtain ⟨c2, a₇, i1, r7, i2, i3⟩ := maybeMergeSets_spec hwf s r6 hans hv.topLt (hg .isps) (he .isps)
  obtain ⟨c3, a₈, k1, r8, k2, k3⟩ := maybeMergeSets_spec hwf s r7 hans hv.topLt (hg .ctries) (he .ctries)
  obtain ⟨sf, hsf⟩ := toStandardForm_ok env f
  have l1 : maybeLoadOrganizations organizations f = .ok (g .orgs) := hl .orgs
  have l2 : maybeLoadIsps order nodes f = .ok (g .isps) := hl .isps
  have l3 : maybeLoadCountries order nodes f = .ok (g .ctries) := hl .ctries
  have l0 : g .nodes = none := (Except.ok.inj (hl .nodes)).symm
  refine ⟨extendWithCtries c3 (extendWithIsps c2 (extendWithOrgs c1
      { label := label, hasQuorumIntersection := v, topTierSize := t.len,
        mbsMin := b.min, mbsMax := b.max, mbsMean := b.mean,
        mssMin := p.min, mssMax := p.max, mssMean := p.mean,
        mqMin := q.min, mqMax := q.max, mqMean := q.mean,
        standardFormHash := hash sf.toJson })),
    v, t.unwrap, Q, B, S, ?_, hv, rfl, rfl, ?_, ?_, sf, hsf, rfl⟩
  · unfold Bulk.analyze
    simp only [hf, l1, l2, l3, hn, q1, v1, t1, b1, p1, o1, i1, k1, hsf, minmaxmean, bind, Except.bind]
  · intro k hk hgk
    cases k with
    | nodes => exact absurd rfl hk
    | orgs => exact o2 hgk
    | isps => exact i2 hgk
    | ctries => exact k2 hgk
  · intro k hk
    cases k with
    | nodes =>
      rw [l0]
      exact ⟨t.unwrap, Q, B, S, rfl, rfl, rfl, rfl, rfl,
        ⟨_, _, _, rfl, sizes_of_unwrap q2 (.inr q3)⟩, ⟨_, _, _, rfl, sizes_of_unwrap b3 (.inr b4)⟩,
        ⟨_, _, _, rfl, sizes_of_unwrap p3 (.inr p4)⟩⟩
    | orgs => exact o3 (hk.resolve_left (by simp))
    | isps => exact i3 (hk.resolve_left (by simp))
    | ctries => exact k3 (hk.resolve_left (by simp))

end

/-! ### Loading groups -/

/-- Options of the command line tool that load the same groups. -/
def kindOptions (nodes : Json) (organizations : Option Json) (k : Kind) : Options :=
  ⟨nodes, true, false, false, false, false, false, false, false, false, false,
    if k = .orgs then organizations else none, k = .isps, k = .ctries⟩

theorem someE_ok {x : Except Panic Groupings} {g : Option Groupings} :
    someE x = .ok g ↔ ∃ g', x = .ok g' ∧ g = some g' := by
  cases x with
  | error e => simp [someE]
  | ok g' => simp [someE, eq_comm]

/-- What is kept of the groups. -/
def keepSome (k : Kind) (g : Option Groupings) : Option Groupings :=
  g.filter (fun g => k = .orgs || g.groupings.length ≠ 0)

theorem loadKind_eq (order : List String → List String) (nodes : Json) (organizations : Option Json)
    (f : Fbas) (k : Kind) :
    loadKind order nodes organizations f k =
      (loadGroupings order (kindOptions nodes organizations k) f).map (keepSome k) := by
  cases k with
  | nodes => rfl
  | orgs =>
    cases organizations with
    | none => rfl
    | some j =>
      show someE (Groupings.organizationsFromJson j f) =
        (someE (Groupings.organizationsFromJson j f)).map _
      cases Groupings.organizationsFromJson j f <;> rfl
  | isps =>
    show maybeLoadIsps order nodes f = (someE (Groupings.ispsFromJson order nodes f)).map _
    unfold maybeLoadIsps
    cases Groupings.ispsFromJson order nodes f with
    | error e => rfl
    | ok g =>
      simp only [bind, Except.bind, someE, Except.map, keepSome, Option.filter]
      by_cases h : g.groupings.length = 0 <;> simp [h]
  | ctries =>
    show maybeLoadCountries order nodes f = (someE (Groupings.countriesFromJson order nodes f)).map _
    unfold maybeLoadCountries
    cases Groupings.countriesFromJson order nodes f with
    | error e => rfl
    | ok g =>
      simp only [bind, Except.bind, someE, Except.map, keepSome, Option.filter]
      by_cases h : g.groupings.length = 0 <;> simp [h]

theorem kindOptions_by (nodes : Json) (organizations : Option Json) (k : Kind) :
    (ByCountry (kindOptions nodes organizations k) ↔ k = .ctries) ∧
      (ByIsp (kindOptions nodes organizations k) ↔ k = .isps) ∧
      (∀ j, ByOrg (kindOptions nodes organizations k) j ↔ k = .orgs ∧ organizations = some j) ∧
      ¬ UsesAlternative (kindOptions nodes organizations k) := by
  unfold ByCountry ByIsp ByOrg UsesAlternative kindOptions
  cases k <;> simp

/-- Groups are loaded. -/
theorem loadKind_ok_iff (order : List String → List String) {nodes : Json} (organizations : Option Json)
    {r : RawFbas} (hr : DescribesFbas nodes r) (k : Kind) :
    (∃ g, loadKind order nodes organizations (Fbas.fromRaw r) k = .ok g) ↔
      (k = .ctries → ∀ n ∈ r, ∀ s, n.geoData = some (some s) → AsciiEnd s) ∧
      (k = .isps → ∀ n ∈ r, ∀ s, n.isp = some s → AsciiEnd s) ∧
      ∀ j, k = .orgs ∧ organizations = some j → ∃ gs, DescribesGroupings j gs := by
  obtain ⟨b1, b2, b3, -⟩ := kindOptions_by nodes organizations k
  rw [← b1, ← b2]
  simp only [← b3]
  rw [← (loadGroupings_spec order (kindOptions nodes organizations k) r hr).1, loadKind_eq]
  constructor
  · rintro ⟨g, hg⟩
    cases h : loadGroupings order (kindOptions nodes organizations k) (Fbas.fromRaw r) with
    | error e => rw [h] at hg; cases hg
    | ok g' => exact ⟨g', rfl⟩
  · rintro ⟨g, hg⟩
    exact ⟨keepSome k g, by rw [hg]; rfl⟩

theorem loadKind_made (order : List String → List String) {nodes : Json} (organizations : Option Json)
    {r : RawFbas} (hr : DescribesFbas nodes r) (k : Kind) {g : Option Groupings}
    (hg : loadKind order nodes organizations (Fbas.fromRaw r) k = .ok g) :
    ∃ gs, MadeFrom g gs (Fbas.fromRaw r) ∧ MembersExist gs (Fbas.fromRaw r) ∧
      (g ≠ none → loadGroupings order (kindOptions nodes organizations k) (Fbas.fromRaw r) = .ok g) := by
  rw [loadKind_eq] at hg
  cases h : loadGroupings order (kindOptions nodes organizations k) (Fbas.fromRaw r) with
  | error e => rw [h] at hg; cases hg
  | ok g' =>
    rw [h] at hg
    obtain rfl := Except.ok.inj hg
    obtain ⟨gs, h1, h2, -⟩ := (loadGroupings_spec order (kindOptions nodes organizations k) r hr).2 _ h
    by_cases hk : keepSome k g' = none
    · exact ⟨[], .inl ⟨hk, rfl⟩, by simp [MembersExist], fun hn => absurd hk hn⟩
    · have e : keepSome k g' = g' := by
        unfold keepSome at hk ⊢
        cases g' with
        | none => rfl
        | some g' =>
          rw [Option.filter_eq_none_iff] at hk
          push Not at hk
          obtain ⟨x, hx, hp⟩ := hk
          cases hx
          rw [Option.filter_some, if_pos hp]
      rw [e]
      exact ⟨gs, h1, h2, fun _ => rfl⟩

/-- There are groups iff there is information about them. -/
theorem loadKind_some_iff (order : List String → List String) (ho : ∀ l, (order l).Perm l) {nodes : Json}
    (organizations : Option Json) {r : RawFbas} (hr : DescribesFbas nodes r) (k : Kind)
    {g : Option Groupings} (hg : loadKind order nodes organizations (Fbas.fromRaw r) k = .ok g) :
    k = .nodes ∨ g ≠ none ↔ HasInformation r organizations k := by
  have hraw := fbas_fromJson_iff.2 hr
  have key : ∀ (key : RawNode → Option String) raws g',
      groupsFromRawNodes order key r = .ok raws → Groupings.fromRaw raws (Fbas.fromRaw r) = .ok g' →
      (g'.groupings.length ≠ 0 ↔ ∃ n ∈ r, key n ≠ none) := by
    intro key raws g' h1 h2
    have hlen : g'.groupings.length = raws.length := by
      obtain ⟨g'', e1, e2, -⟩ := fromRaw_groupings r raws
      rw [h2] at e1
      obtain rfl := Except.ok.inj e1
      have hm : Groupings.new (raws.map (Grouping.fromRaw (Fbas.fromRaw r).pkToId)) (Fbas.fromRaw r) =
        .ok g' := h2
      have := madeFrom_unique (g := some g') (.inr ⟨g', rfl, e2⟩) (.inr ⟨g', rfl, hm⟩)
      rw [this, List.length_map]
    rw [hlen, Ne, List.length_eq_zero_iff]
    obtain ⟨-, h3⟩ := groups_spec order ho key r raws h1
    constructor
    · intro hne
      obtain ⟨⟨nm, vs⟩, hx⟩ := List.exists_mem_of_ne_nil _ hne
      obtain ⟨rfl, hv⟩ := (h3 nm vs).1 hx
      obtain ⟨p, hp⟩ := List.exists_mem_of_ne_nil _ hv
      obtain ⟨n, hn, -⟩ := List.mem_map.1 hp
      obtain ⟨hn, hk⟩ := List.mem_filter.1 hn
      refine ⟨n, hn, fun h => ?_⟩
      rw [h] at hk
      cases hk
    · rintro ⟨n, hn, hk⟩ rfl
      obtain ⟨s, hs⟩ := Option.ne_none_iff_exists'.1 hk
      refine absurd ((h3 (String.ofList (plainName s)) _).2 ⟨rfl, ?_⟩) (List.not_mem_nil)
      refine List.ne_nil_of_mem (List.mem_map_of_mem (List.mem_filter.2 ⟨hn, ?_⟩))
      rw [hs]
      simp
  cases k with
  | nodes => simp [HasInformation]
  | orgs =>
    cases organizations with
    | none => obtain rfl := Except.ok.inj hg; simp [HasInformation]
    | some j =>
      obtain ⟨g', -, rfl⟩ := someE_ok.1 hg
      simp [HasInformation]
  | isps =>
    replace hg : maybeLoadIsps order nodes (Fbas.fromRaw r) = .ok g := hg
    unfold maybeLoadIsps Groupings.ispsFromJson Groupings.ispsFromRaw at hg
    rw [hraw] at hg
    dsimp only at hg
    split at hg
    · cases hg
    next raws hraws =>
      simp only [bind, Except.bind] at hg
      split at hg
      · cases hg
      next g' hg' =>
        have := key _ raws g' hraws hg'
        simp only [Except.ok.injEq] at hg
        subst hg
        show _ ↔ ∃ n ∈ r, n.isp ≠ none
        rw [← this]
        by_cases h : g'.groupings.length = 0 <;> simp [h]
  | ctries =>
    replace hg : maybeLoadCountries order nodes (Fbas.fromRaw r) = .ok g := hg
    unfold maybeLoadCountries Groupings.countriesFromJson Groupings.countriesFromRaw at hg
    rw [hraw] at hg
    dsimp only at hg
    split at hg
    · cases hg
    next raws hraws =>
      simp only [bind, Except.bind] at hg
      split at hg
      · cases hg
      next g' hg' =>
        have := key _ raws g' hraws hg'
        simp only [Except.ok.injEq] at hg
        subst hg
        have hc : (fun n : RawNode => n.geoData.join) = RawNode.country := by
          funext n
          unfold RawNode.country
          cases n.geoData with
          | none => rfl
          | some o => rfl
        show _ ↔ ∃ n ∈ r, (fun n : RawNode => n.geoData.join) n ≠ none
        rw [hc, ← this]
        by_cases h : g'.groupings.length = 0 <;> simp [h]

end FA
