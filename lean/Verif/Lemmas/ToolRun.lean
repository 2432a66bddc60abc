import Verif.Lemmas.ToolParts
import Verif.Props.IoGroupings
import Verif.Props.Json

/-!
# Lemmas: runs of the command line tool
-/

namespace FA.Props
open FA Spec Analysis Tool Groupings

/-! ## Loading -/

theorem fromRaw_groupings (r : RawFbas) (gs : List RawGrouping) :
    ∃ g, Groupings.fromRaw gs (Fbas.fromRaw r) = .ok g ∧
      Groupings.new g.groupings (Fbas.fromRaw r) = .ok g ∧ MembersExist g.groupings (Fbas.fromRaw r) := by
  have hm : MembersExist (gs.map (Grouping.fromRaw (Fbas.fromRaw r).pkToId)) (Fbas.fromRaw r) := by
    intro org ho v hv
    obtain ⟨g, -, rfl⟩ := List.mem_map.1 ho
    obtain ⟨p, -, hp⟩ := List.mem_filterMap.1 hv
    rw [fromRaw_length]
    exact LastIndex.lt ((rawIds_get? r p v).1 hp)
  obtain ⟨g, hg, hgs, -⟩ := Groupings.new_ok
    (gs := gs.map (Grouping.fromRaw (Fbas.fromRaw r).pkToId)) (f := Fbas.fromRaw r)
    (fun org ho v hv => hm org ho v (List.mem_of_mem_tail hv))
  refine ⟨g, ?_, ?_, ?_⟩
  · exact hg
  · rw [hgs]; exact hg
  · rw [hgs]; exact hm

/-- What is loaded. -/
theorem loadGroupings_spec (order : List String → List String) (opts : Options) (r : RawFbas)
    (hr : DescribesFbas opts.nodes r) :
    ((∃ g, loadGroupings order opts (Fbas.fromRaw r) = .ok g) ↔
      (ByCountry opts → ∀ n ∈ r, ∀ s, n.geoData = some (some s) → AsciiEnd s) ∧
      (ByIsp opts → ∀ n ∈ r, ∀ s, n.isp = some s → AsciiEnd s) ∧
      ∀ j, ByOrg opts j → ∃ gs, DescribesGroupings j gs) ∧
    ∀ g, loadGroupings order opts (Fbas.fromRaw r) = .ok g →
      ∃ gs, MadeFrom g gs (Fbas.fromRaw r) ∧ MembersExist gs (Fbas.fromRaw r) ∧
        (g ≠ none ↔ ByCountry opts ∨ ByIsp opts ∨ ∃ j, ByOrg opts j) := by
  have hraw := fbas_fromJson_iff.2 hr
  have some_ok : ∀ (x : Except Panic Groupings) g, someE x = .ok g ↔ ∃ g', x = .ok g' ∧ g = some g' := by
    intro x g
    cases x with
    | error e => simp [someE]
    | ok g' => simp [someE, eq_comm]
  have key : ∀ (gs : List RawGrouping) (g : Groupings), Groupings.fromRaw gs (Fbas.fromRaw r) = .ok g →
      ∃ gs, MadeFrom (some g) gs (Fbas.fromRaw r) ∧ MembersExist gs (Fbas.fromRaw r) := by
    intro gs g hg
    obtain ⟨g', h1, h2, h3⟩ := fromRaw_groupings r gs
    rw [hg] at h1
    obtain rfl := Except.ok.inj h1
    exact ⟨_, .inr ⟨g, rfl, h2⟩, h3⟩
  have none_made : ∃ gs, MadeFrom none gs (Fbas.fromRaw r) ∧ MembersExist gs (Fbas.fromRaw r) :=
    ⟨[], .inl ⟨rfl, rfl⟩, by simp [MembersExist]⟩
  unfold loadGroupings Options.groupingsTodos ByCountry ByIsp ByOrg
  cases hc : opts.ctryMerge with
  | true =>
    cases hp : opts.nodesPath with
    | false =>
      simp only [↓reduceIte, Bool.false_eq_true, and_false, Bool.true_eq_false, false_and, or_self,
        exists_false, iff_false, not_not, IsEmpty.forall_iff, implies_true, and_self,
        Except.ok.injEq, exists_eq']
      refine ⟨trivial, ?_⟩
      rintro g rfl
      obtain ⟨gs, h⟩ := none_made
      exact ⟨gs, h.1, h.2, rfl⟩
    | true =>
      simp only [↓reduceIte, and_self, Bool.true_eq_false, false_and, or_false, exists_false,
        iff_true, forall_const, IsEmpty.forall_iff, implies_true, and_true, some_ok]
      unfold Groupings.countriesFromJson Groupings.countriesFromRaw
      rw [hraw]
      dsimp only
      constructor
      · rw [← (C53_groupings_partial order r).2]
        constructor
        · rintro ⟨g, g', h, rfl⟩
          split at h
          · cases h
          next gs hgs => exact ⟨gs, hgs⟩
        · rintro ⟨gs, hgs⟩
          obtain ⟨g, h1, -⟩ := fromRaw_groupings r gs
          exact ⟨some g, g, by rw [hgs]; exact h1, rfl⟩
      · rintro g ⟨g', h, rfl⟩
        split at h
        · cases h
        next gs hgs =>
          obtain ⟨gs', h'⟩ := key _ _ h
          exact ⟨gs', h'.1, h'.2, by simp⟩
  | false =>
    cases hi : opts.ispMerge with
    | true =>
      cases hp : opts.nodesPath with
      | false =>
        simp only [↓reduceIte, Bool.false_eq_true, and_false, Bool.true_eq_false, false_and, or_self,
          exists_false, iff_false, not_not, IsEmpty.forall_iff, implies_true, and_self,
          Except.ok.injEq, exists_eq']
        refine ⟨trivial, ?_⟩
        rintro g rfl
        obtain ⟨gs, h⟩ := none_made
        exact ⟨gs, h.1, h.2, rfl⟩
      | true =>
        simp only [↓reduceIte, Bool.false_eq_true, and_self, Bool.true_eq_false, false_and, and_false, or_false,
          false_or, exists_false, iff_true, forall_const, IsEmpty.forall_iff, implies_true, and_true,
          true_and, some_ok]
        unfold Groupings.ispsFromJson Groupings.ispsFromRaw
        rw [hraw]
        dsimp only
        constructor
        · rw [← (C53_groupings_partial order r).1]
          constructor
          · rintro ⟨g, g', h, rfl⟩
            split at h
            · cases h
            next gs hgs => exact ⟨gs, hgs⟩
          · rintro ⟨gs, hgs⟩
            obtain ⟨g, h1, -⟩ := fromRaw_groupings r gs
            exact ⟨some g, g, by rw [hgs]; exact h1, rfl⟩
        · rintro g ⟨g', h, rfl⟩
          split at h
          · cases h
          next gs hgs =>
            obtain ⟨gs', h'⟩ := key _ _ h
            exact ⟨gs', h'.1, h'.2, by simp⟩
    | false =>
      cases ho : opts.organizations with
      | none =>
        simp only [↓reduceIte, Bool.false_eq_true, and_false, Option.isSome_none, false_and, or_self,
          exists_false, iff_false, not_not, IsEmpty.forall_iff, implies_true, and_self, reduceCtorEq,
          Except.ok.injEq, exists_eq']
        refine ⟨trivial, ?_⟩
        rintro g rfl
        obtain ⟨gs, h⟩ := none_made
        exact ⟨gs, h.1, h.2, rfl⟩
      | some j =>
        simp only [↓reduceIte, Bool.false_eq_true, and_false, Option.isSome_some, false_and, false_or,
          IsEmpty.forall_iff, true_and, Option.some.injEq, exists_eq', iff_true,
          forall_eq', some_ok]
        obtain ⟨h1, h2⟩ := C62_organizations j (Fbas.fromRaw r)
        constructor
        · constructor
          · rintro ⟨g, g', h, rfl⟩
            by_contra hn
            rw [h2 (fun gs hgs => hn ⟨gs, hgs⟩)] at h
            cases h
          · rintro ⟨gs, hgs⟩
            obtain ⟨g, h3, -⟩ := fromRaw_groupings r gs
            exact ⟨some g, g, by rw [h1 gs hgs]; exact h3, rfl⟩
        · rintro g ⟨g', h, rfl⟩
          by_cases hd : ∃ gs, DescribesGroupings j gs
          · obtain ⟨gs, hgs⟩ := hd
            rw [h1 gs hgs] at h
            obtain ⟨gs', h'⟩ := key _ _ h
            exact ⟨gs', h'.1, h'.2, by simp⟩
          · rw [h2 (fun gs hgs => hd ⟨gs, hgs⟩)] at h
            cases h

/-! ## Panics -/

theorem main_ok_iff (env : Env) (order : List String → List String) (opts : Options) :
    (∃ lines, Tool.main env order opts = .ok lines) ↔
      ∃ r, DescribesFbas opts.nodes r ∧
        (ByCountry opts → ∀ n ∈ r, ∀ s, n.geoData = some (some s) → AsciiEnd s) ∧
        (ByIsp opts → ∀ n ∈ r, ∀ s, n.isp = some s → AsciiEnd s) ∧
        (∀ j, ByOrg opts j → ∃ gs, DescribesGroupings j gs) ∧
        (UsesAlternative opts → ∃ Q, IsQuorum (Fbas.fromRaw r) Q) := by
  have hq : ∀ (r : RawFbas), (∃ Q, IsQuorum (Fbas.fromRaw r) Q) →
      ∃ ans, answerAfter env (Fbas.fromRaw r) (callsQ opts) .alternativeCheck = .ok ans := by
    intro r hq
    refine C28_no_panic_with_alternative_check env _ (wf_fromRaw r) hq _ _ ?_
    rintro ⟨pre, post, he, -⟩
    have : Call.minimalBlockingSets ∈ callsQ opts ++ [.alternativeCheck] := by rw [he]; simp
    unfold callsQ at this
    split at this <;> simp at this
  constructor
  · rintro ⟨lines, h⟩
    unfold Tool.main at h
    split at h
    · cases h
    next f hf =>
      split at h
      · cases h
      next g hg =>
        obtain ⟨r, hr, rfl⟩ := ((C62_nodes opts.nodes).1 f).1 hf
        obtain ⟨h1, h2⟩ := loadGroupings_spec order opts r hr
        obtain ⟨a1, a2, a3⟩ := h1.1 ⟨g, hg⟩
        refine ⟨r, hr, a1, a2, a3, fun halt => ?_⟩
        by_contra hn
        obtain ⟨gs, m1, m2, -⟩ := h2 g hg
        rw [analyze_error (o := ⟨_, _, _, Fbas.fromRaw r, g⟩) m1 m2 (wf_fromRaw r) halt.1 halt.2 hn] at h
        cases h
  · rintro ⟨r, hr, a1, a2, a3, halt⟩
    obtain ⟨h1, h2⟩ := loadGroupings_spec order opts r hr
    obtain ⟨g, hg⟩ := h1.2 ⟨a1, a2, a3⟩
    obtain ⟨gs, m1, m2, -⟩ := h2 g hg
    obtain ⟨lines, h3, -⟩ := analyze_ok (env := env) (opts := opts)
      (o := ⟨opts.resultsOnly, opts.pretty, opts.describe, Fbas.fromRaw r, g⟩) m1 m2 (wf_fromRaw r)
      (fun hd ha => hq r (halt ⟨hd, ha⟩))
    refine ⟨lines, ?_⟩
    unfold Tool.main
    rw [((C62_nodes opts.nodes).1 _).2 ⟨r, hr, rfl⟩]
    dsimp only
    rw [hg]
    exact h3

/-! ## Results -/

/-- The tool was started with `opts` and printed `lines`; the FBAS is `f`, nodes are merged by the groups
`gs` (if `merge` holds). -/
structure Run (env : Env) (order : List String → List String) (opts : Options) (f : Fbas)
    (g : Option Groupings) (gs : List Grouping) (lines : List Line) : Prop where
  nodes : Fbas.fromJson opts.nodes = .ok f
  groups : loadGroupings order opts f = .ok g
  made : MadeFrom g gs f
  ok : Tool.main env order opts = .ok lines

section
variable {env : Env} {order : List String → List String} {opts : Options} {f : Fbas}
  {g : Option Groupings} {gs : List Grouping} {lines : List Line}

theorem madeFrom_unique {g : Option Groupings} {gs gs' : List Grouping} {f : Fbas}
    (h : MadeFrom g gs f) (h' : MadeFrom g gs' f) : gs = gs' := by
  have key : ∀ {g : Groupings} {gs}, Groupings.new gs f = .ok g → g.groupings = gs := by
    intro g gs hg
    obtain ⟨g', h1, h2, -⟩ := new_ok ((C33_new gs f).1 ⟨g, hg⟩)
    rw [hg] at h1
    obtain rfl := Except.ok.inj h1
    exact h2
  rcases h with ⟨rfl, rfl⟩ | ⟨g, rfl, h⟩ <;> rcases h' with ⟨h1, h2⟩ | ⟨g', h1, h2⟩
  · exact h2.symm
  · cases h1
  · cases h1
  · cases h1
    rw [← key h, ← key h2]

theorem Run.spec (hr : Run env order opts f g gs lines) :
    WF f ∧ MembersExist gs f ∧ (g ≠ none ↔ ByCountry opts ∨ ByIsp opts ∨ ∃ j, ByOrg opts j) ∧
      (UsesAlternative opts → ∃ Q, IsQuorum f Q) ∧
      Printed env opts ⟨opts.resultsOnly, opts.pretty, opts.describe, f, g⟩ gs lines := by
  obtain ⟨hf, hg, hm, hok⟩ := hr
  obtain ⟨r, hr, rfl⟩ := ((C62_nodes opts.nodes).1 f).1 hf
  obtain ⟨gs', m1, m2, m3⟩ := (loadGroupings_spec order opts r hr).2 g hg
  obtain rfl := madeFrom_unique hm m1
  obtain ⟨r', hr', -, -, -, halt⟩ := (main_ok_iff env order opts).1 ⟨lines, hok⟩
  obtain rfl := C62_unambiguous _ _ _ hr hr'
  refine ⟨wf_fromRaw r, m2, m3, halt, ?_⟩
  obtain ⟨lines', h3, h4⟩ := analyze_ok (env := env) (opts := opts)
    (o := ⟨opts.resultsOnly, opts.pretty, opts.describe, Fbas.fromRaw r, g⟩) m1 m2 (wf_fromRaw r)
    (fun hd ha => C28_no_panic_with_alternative_check env _ (wf_fromRaw r) (halt ⟨hd, ha⟩) _ _ (by
      rintro ⟨pre, post, he, -⟩
      have : Call.minimalBlockingSets ∈ callsQ opts ++ [.alternativeCheck] := by rw [he]; simp
      unfold callsQ at this
      split at this <;> simp at this))
  unfold Tool.main at hok
  rw [hf] at hok
  dsimp only at hok
  rw [hg] at hok
  dsimp only at hok
  rw [h3] at hok
  rw [← Except.ok.inj hok]
  exact h4

theorem results_append (l l' : List Line) : results (l ++ l') = results l ++ results l' :=
  List.filterMap_append

theorem results_comment (o : Output) (c : Comment) : results (o.comment c) = [] := by
  unfold Output.comment results
  split <;> rfl

theorem results_init (o : Output) : results o.init = [] := by
  unfold Output.init results
  split
  · rfl
  · split <;> split <;> rfl

theorem results_result (name : String) (j : Json) (l : List Line) :
    results (.result name j :: l) = (name, j) :: results l := rfl

theorem results_duration (name : String) (l : List Line) :
    results (.duration name :: l) = results l := rfl

theorem results_nil : results [] = [] := rfl

/-- The printed results. -/
inductive IsResult (env : Env) (opts : Options) (f : Fbas) (g : Option Groupings)
    (gs : List Grouping) : String → Json → Prop
  | nodes : IsResult env opts f g gs "nodes_total" (.nat f.nodes.length)
  | merged {g' M} (h : g = some g') (hM : g'.mergeNodeSet (Finset.range f.nodes.length) = .ok M) :
      IsResult env opts f g gs "nodes_total_merged" (.nat M.card)
  | clusters {L M j} (hL : findSymmetricClusters env f = .ok L) (hM : MergedQSets g L M)
      (hj : DisjointGroups gs → ShowsQSets opts.pretty gs f M j) :
      IsResult env opts f g gs "symmetric_clusters" j
  | quorums {L M j} (hb : opts.todos.1 = true)
      (hL : answerAfter env f [] .minimalQuorums = .ok (.sets L)) (hM : MergedSets g L M)
      (hlt : ∀ S ∈ L, ∀ x ∈ S, x < f.nodes.length)
      (hj : ShowsSets opts.describe opts.pretty gs f M j) : IsResult env opts f g gs "minimal_quorums" j
  | intersection {v} (hd : opts.dontCheck = false) (ha : opts.alternativeCheck = false)
      (hv : answerAfter env f (callsQ opts) .hasQuorumIntersection = .ok (.bool v)) :
      IsResult env opts f g gs "has_quorum_intersection" (.bool v)
  | alternative {v w} (hd : opts.dontCheck = false) (ha : opts.alternativeCheck = true)
      (hv : answerAfter env f (callsQ opts) .alternativeCheck = .ok (.verdict v w)) :
      IsResult env opts f g gs "has_quorum_intersection" (.bool v)
  | witness {v L j} (hd : opts.dontCheck = false) (ha : opts.alternativeCheck = true)
      (hv : answerAfter env f (callsQ opts) .alternativeCheck = .ok (.verdict v (some L)))
      (hj : ShowsSets opts.describe opts.pretty gs f L j) :
      IsResult env opts f g gs "nonintersecting_quorums" j
  | blocking {L M j} (hb : opts.todos.2.1 = true)
      (hL : answerAfter env f (callsC opts) .minimalBlockingSets = .ok (.sets L)) (hM : MergedSets g L M)
      (hlt : ∀ S ∈ L, ∀ x ∈ S, x < f.nodes.length)
      (hj : ShowsSets opts.describe opts.pretty gs f M j) :
      IsResult env opts f g gs "minimal_blocking_sets" j
  | splitting {L M j} (hb : opts.todos.2.2 = true)
      (hL : answerAfter env f (callsB opts) .minimalSplittingSets = .ok (.sets L))
      (hM : MergedSets g L M) (hlt : ∀ S ∈ L, ∀ x ∈ S, x < f.nodes.length)
      (hj : ShowsSets opts.describe opts.pretty gs f M j) :
      IsResult env opts f g gs "minimal_splitting_sets" j
  | topTier {T M j} (hb : (opts.todos.1 || opts.todos.2.1 || opts.todos.2.2) = true)
      (hT : answerAfter env f (callsS opts) .topTier = .ok (.set T)) (hM : MergedSet g T M)
      (hlt : ∀ x ∈ T, x < f.nodes.length) (hj : ShowsSet opts.pretty gs f M j) :
      IsResult env opts f g gs "top_tier" j

theorem Run.result (hr : Run env order opts f g gs lines) {name : String} {j : Json}
    (h : (name, j) ∈ results lines) : IsResult env opts f g gs name j := by
  obtain ⟨-, -, -, -, l₁, l₂, l₃, l₄, l₅, l₆, l₇, rfl, p1, p2, p3, p4, p5, p6, p7⟩ := hr.spec
  simp only [results_append, results_init, results_comment, List.nil_append, List.append_nil,
    List.mem_append] at h
  have hsets : ∀ {b : Bool} {hist : List Call} {c : Call} {nm : String} {cm : ℕ → Comment}
      {l : List Line}, Opt b (SetsPart env ⟨opts.resultsOnly, opts.pretty, opts.describe, f, g⟩ gs hist c
        nm cm) l → (name, j) ∈ results l → b = true ∧ name = nm ∧ ∃ L M,
          answerAfter env f hist c = .ok (.sets L) ∧ MergedSets g L M ∧
          (∀ S ∈ L, ∀ x ∈ S, x < f.nodes.length) ∧
          ShowsSets opts.describe opts.pretty gs f M j := by
    intro b hist c nm cm l hp hm
    unfold Opt at hp
    cases b with
    | false =>
      simp only [Bool.false_eq_true, ↓reduceIte] at hp
      subst hp
      simp [results] at hm
    | true =>
      simp only [↓reduceIte] at hp
      obtain ⟨L, M, j', h1, h2, h3, h4, rfl⟩ := hp
      simp only [List.cons_append, results_result, results_duration,
        List.nil_append, results_comment, List.mem_singleton, Prod.mk.injEq] at hm
      obtain ⟨rfl, rfl⟩ := hm
      exact ⟨rfl, rfl, L, M, h1, h2, h3, h4⟩
  rcases h with (((((h | h) | h) | h) | h) | h) | h
  · unfold OverviewPart at p1
    dsimp only at p1
    cases hg : g with
    | none =>
      rw [hg] at p1
      subst p1
      simp only [results_result, results_nil, List.mem_singleton, Prod.mk.injEq] at h
      obtain ⟨rfl, rfl⟩ := h
      exact .nodes
    | some g' =>
      rw [hg] at p1
      obtain ⟨M, hM, rfl⟩ := p1
      simp only [List.cons_append, results_result, List.nil_append, results_comment, List.mem_cons,
        Prod.mk.injEq, List.not_mem_nil, or_false] at h
      rcases h with ⟨rfl, rfl⟩ | ⟨rfl, rfl⟩
      · exact .nodes
      · exact .merged rfl hM
  · obtain ⟨L, M, j', h1, h2, h3, rfl⟩ := p2
    simp only [List.cons_append, results_result, results_duration,
      List.nil_append, results_comment, List.mem_singleton, Prod.mk.injEq] at h
    obtain ⟨rfl, rfl⟩ := h
    exact .clusters h1 h2 h3
  · obtain ⟨hb, rfl, L, M, h1, h2, h3, h4⟩ := hsets p3 h
    exact .quorums hb h1 h2 h3 h4
  · unfold Opt at p4
    cases hd : opts.dontCheck with
    | true =>
      simp only [hd, Bool.not_true, Bool.false_eq_true, ↓reduceIte] at p4
      subst p4
      simp [results] at h
    | false =>
      simp only [hd, Bool.not_false, ↓reduceIte] at p4
      unfold IntersectionPart at p4
      cases ha : opts.alternativeCheck with
      | false =>
        simp only [ha, Bool.false_eq_true, ↓reduceIte] at p4
        obtain ⟨v, h1, rfl⟩ := p4
        simp only [List.cons_append, results_result, results_duration,
          List.nil_append, results_comment, List.mem_singleton, Prod.mk.injEq] at h
        obtain ⟨rfl, rfl⟩ := h
        exact .intersection hd ha h1
      | true =>
        simp only [ha, ↓reduceIte] at p4
        obtain ⟨v, w, l', h1, h2, rfl⟩ := p4
        simp only [results_append, results_comment, List.append_nil, List.nil_append, List.mem_append,
          results_result, results_duration, results_nil, List.mem_singleton, Prod.mk.injEq] at h
        rcases h with ⟨rfl, rfl⟩ | h
        · exact .alternative hd ha h1
        · cases w with
          | none =>
            dsimp only at h2
            subst h2
            simp [results] at h
          | some L =>
            obtain ⟨j', h3, rfl⟩ := h2
            simp only [results_result, results_nil, List.mem_singleton, Prod.mk.injEq] at h
            obtain ⟨rfl, rfl⟩ := h
            exact .witness hd ha h1 h3
  · obtain ⟨hb, rfl, L, M, h1, h2, h3, h4⟩ := hsets p5 h
    exact .blocking hb h1 h2 h3 h4
  · obtain ⟨hb, rfl, L, M, h1, h2, h3, h4⟩ := hsets p6 h
    exact .splitting hb h1 h2 h3 h4
  · unfold Opt at p7
    cases hb : (opts.todos.1 || opts.todos.2.1 || opts.todos.2.2) with
    | false =>
      simp only [hb, Bool.false_eq_true, ↓reduceIte] at p7
      subst p7
      simp [results] at h
    | true =>
      simp only [hb, ↓reduceIte] at p7
      obtain ⟨T, M, j', h1, h2, h3, h4, rfl⟩ := p7
      simp only [List.cons_append, results_result, 
        List.nil_append, results_comment, List.mem_singleton, Prod.mk.injEq] at h
      obtain ⟨rfl, rfl⟩ := h
      exact .topTier hb h1 h2 h3 h4

theorem wants_iff (opts : Options) : (opts.todos.1 = true ↔ WantsQuorums opts) ∧
    (opts.todos.2.1 = true ↔ WantsBlocking opts) ∧ (opts.todos.2.2 = true ↔ WantsSplitting opts) := by
  unfold Options.todos WantsQuorums WantsBlocking WantsSplitting
  cases opts.all <;> simp

theorem not_starts_of_head {c : Call} {rest : List Call} (hc : c ≠ .minimalBlockingSets)
    (hact : c ∈ ([.hasQuorumIntersection, .minimalQuorums, .minimalBlockingSets, .minimalSplittingSets,
      .topTier] : List Call)) : ¬ StartsWithBlockingSets (c :: rest) := by
  rintro ⟨pre, post, he, hpre⟩
  cases pre with
  | nil => exact hc (List.cons.inj he).1
  | cons d pre =>
    obtain ⟨rfl, -⟩ := List.cons.inj he
    exact hpre c List.mem_cons_self hact

theorem not_starts_of_not_mem {h : List Call} (hm : .minimalBlockingSets ∉ h) :
    ¬ StartsWithBlockingSets h := by
  rintro ⟨pre, post, rfl, -⟩
  exact hm (by simp)

theorem not_mem_callsQ (opts : Options) : .minimalBlockingSets ∉ callsQ opts := by
  unfold callsQ; split <;> simp

theorem not_mem_callsC (opts : Options) : .minimalBlockingSets ∉ callsC opts := by
  unfold callsC checkCalls
  rw [List.mem_append]
  rintro (h | h)
  · exact not_mem_callsQ opts h
  · split at h
    · simp at h
    · split at h <;> simp at h

/-- Whatever follows the check, `QuorumsFirst` determines what comes first. -/
theorem not_starts_callsC {opts : Options} (hq : QuorumsFirst opts) (rest : List Call) :
    ¬ StartsWithBlockingSets (callsC opts ++ rest) := by
  unfold callsC callsQ checkCalls
  rcases hq with hq | ⟨h1, h2⟩
  · rw [if_pos ((wants_iff opts).1.2 hq)]
    exact not_starts_of_head (by simp) (by simp)
  · rw [h1, h2]
    split
    · exact not_starts_of_head (by simp) (by simp)
    · exact not_starts_of_head (by simp) (by simp)

theorem callsS_eq (opts : Options) : ∃ rest, callsS opts = callsC opts ++ rest :=
  ⟨_, by unfold callsS callsB; rw [List.append_assoc]⟩

theorem safe_calls {opts : Options} {f : Fbas} (h : UsesAlternative opts → ∃ Q, IsQuorum f Q) :
    SafeHistory f (callsQ opts) ∧ SafeHistory f (callsC opts) ∧ SafeHistory f (callsB opts) ∧
      SafeHistory f (callsS opts) := by
  by_cases hu : UsesAlternative opts
  · exact ⟨.inr (h hu), .inr (h hu), .inr (h hu), .inr (h hu)⟩
  · have hc : Call.alternativeCheck ∉ callsS opts := by
      unfold callsS callsB callsC callsQ checkCalls
      simp only [List.mem_append, not_or]
      refine ⟨⟨⟨by split <;> simp, ?_⟩, by split <;> simp⟩, by split <;> simp⟩
      cases hd : opts.dontCheck with
      | true => simp
      | false =>
        cases ha : opts.alternativeCheck with
        | true => exact absurd ⟨hd, ha⟩ hu
        | false => simp
    have hB : Call.alternativeCheck ∉ callsB opts := fun h => hc (by
      unfold callsS; exact List.mem_append_left _ h)
    have hC : Call.alternativeCheck ∉ callsC opts := fun h => hB (by
      unfold callsB; exact List.mem_append_left _ h)
    have hQ : Call.alternativeCheck ∉ callsQ opts := fun h => hC (by
      unfold callsC; exact List.mem_append_left _ h)
    exact ⟨.inl hQ, .inl hC, .inl hB, .inl hc⟩

/-! ### Merged sets -/

/-- Minimal quorums are sorted, even if they are repeated. -/
theorem quorums_sorted (env : Env) (f : Fbas) (hwf : WF f) {L : List NodeSet}
    (h : answerAfter env f [] .minimalQuorums = .ok (.sets L)) :
    L.Pairwise (fun S T => S = T ∨ Before S T) ∧
      ((∀ f' sm, f.shrunken (f.relevantNodes env) = .ok (f', sm) → ∀ q, SymCluster f' q → DupFree q) →
        L.Pairwise Before) := by
  obtain ⟨fR, p, hR, hp, h'⟩ := quorums_first (env := env) (history := []) (c := .minimalQuorums) hwf
    (.inl (by simp)) (by simp) (not_blockingFirst_append (by simp) (by
      rw [← startsWithBlockingSets_iff]; exact not_starts_of_not_mem (by simp)))
  rw [h' _ rfl] at h
  cases h
  obtain ⟨he, hn⟩ := hp.exact hwf hR
  have hs := (sorted_unSet hp.good.Q).2 he.sortedQ
  refine ⟨hs.imp fun {S T} h => ?_, fun hd => before_of hs ((nodup_unSet hp.good.Q).2 (hn ?_))⟩
  · by_cases e : S = T
    · exact .inl e
    · exact .inr (lenLexLt_iff.1 ⟨h, e⟩)
  · intro q hq
    obtain ⟨g, h1, h2⟩ := f.shrunken_ok (f.relevantNodes env)
    obtain ⟨h3, h4⟩ := hR.qset_eq h2
    exact hd g _ h1 q (symCluster_congr h3 h4 q hq)


theorem expand_nil {f : Fbas} {G : NodeSet} (h : ∀ x ∈ G, x < f.nodes.length) : expand [] f G = G := by
  ext y
  rw [mem_expand]
  unfold SameGroup
  simp only [List.not_mem_nil, false_and, exists_false, or_false, exists_eq_right]
  exact ⟨fun h => h.2, fun hy => ⟨h y hy, hy⟩⟩

theorem minimalGroupSets_nil {f : Fbas} {P : NodeSet → Prop} {L : List NodeSet}
    (hlt : ∀ S, Minimal P S → ∀ x ∈ S, x < f.nodes.length) :
    MinimalGroupSets [] f P L ↔ ∀ S, S ∈ L ↔ Minimal P S := by
  unfold MinimalGroupSets
  refine forall_congr' fun G => iff_congr Iff.rfl ?_
  have hrep : ∀ x, Representative [] f x ↔ x < f.nodes.length := by
    intro x; unfold Representative; simp
  have hin : ∀ T, P T → (∃ S, S ⊆ T ∧ Minimal P S) := by
    intro T hT
    obtain ⟨S, h1, h2⟩ := exists_minimal_le_of_wellFoundedLT P T hT
    exact ⟨S, h1, h2⟩
  constructor
  · rintro ⟨⟨h1, h2⟩, h3⟩
    have h1' : ∀ x ∈ G, x < f.nodes.length := fun x hx => (hrep x).1 (h1 x hx)
    rw [expand_nil h1'] at h2
    obtain ⟨S, g1, g2⟩ := hin G h2
    have hS := hlt S g2
    have := h3 (y := S) ⟨fun x hx => (hrep x).2 (hS x hx), by rw [expand_nil hS]; exact g2.prop⟩ g1
    rw [show G = S from le_antisymm this g1]
    exact g2
  · intro hG
    have hGl := hlt G hG
    refine ⟨⟨fun x hx => (hrep x).2 (hGl x hx), by rw [expand_nil hGl]; exact hG.prop⟩, ?_⟩
    rintro T ⟨h1, h2⟩ hT
    rw [expand_nil (fun x hx => (hrep x).1 (h1 x hx))] at h2
    exact hG.le_of_le h2 hT

/-- The merged list consists of the minimal sets of groups. -/
theorem mergedSets_spec {P : NodeSet → Prop} (hP : ∀ S T, S ⊆ T → P S → P T) {f : Fbas}
    {g : Option Groupings} {gs : List Grouping} (hg : MadeFrom g gs f) (hd : DisjointGroups gs)
    (he : MembersExist gs f) {L M : List NodeSet} (hL : ∀ S, S ∈ L ↔ Minimal P S)
    (hlt : ∀ S ∈ L, ∀ x ∈ S, x < f.nodes.length) (hM : MergedSets g L M) :
    MinimalGroupSets gs f P M ∧ (g = none → M = L) ∧ (g ≠ none → M.Pairwise Before) := by
  rcases hg with ⟨rfl, rfl⟩ | ⟨g', rfl, hg⟩
  · obtain rfl : M = L := hM
    refine ⟨(minimalGroupSets_nil fun S hS => hlt S ((hL S).2 hS)).2 hL, fun _ => rfl, by simp⟩
  · obtain ⟨r', l', -, -, h1, h2, h3⟩ := merged_minimal hP f (SetVecResult.new L none) L rfl hL hlt gs g' hg hd he
    have : g'.mergeMinimalNodeSets L = .ok M := hM
    rw [h1] at this
    obtain rfl := Except.ok.inj this
    exact ⟨h2, by simp, fun _ => h3⟩

/-- Merging keeps a property that is inherited by supersets. -/
theorem mergedSets_sound {P : NodeSet → Prop} (hP : ∀ S T, S ⊆ T → P S → P T) {f : Fbas}
    {g : Option Groupings} {gs : List Grouping} (hg : MadeFrom g gs f) (hd : DisjointGroups gs)
    {L M : List NodeSet} (hL : ∀ S ∈ L, P S)
    (hlt : ∀ S ∈ L, ∀ x ∈ S, x < f.nodes.length) (hM : MergedSets g L M) :
    ∀ G ∈ M, P (expand gs f G) := by
  rcases hg with ⟨rfl, rfl⟩ | ⟨g, rfl, hg⟩
  · obtain rfl : M = L := hM
    intro G hG
    rw [expand_nil (hlt G hG)]
    exact hL G hG
  · have hM : g.mergeMinimalNodeSets L = .ok M := hM
    unfold Groupings.mergeMinimalNodeSets at hM
    rw [mergeNodeSets_ok (fun S hS x hx => merge_spec hg x (hlt S hS x hx))] at hM
    obtain rfl := Except.ok.inj hM
    intro G hG
    rw [(removeNonMinimal_spec _).1] at hG
    obtain ⟨S, h1, rfl⟩ := List.mem_map.1 hG.prop
    refine hP S _ (fun x hx => ?_) (hL S h1)
    refine mem_expand.2 ⟨hlt S h1 x hx, _, Finset.mem_image_of_mem _ hx, ?_⟩
    rw [SameGroup, ← tailRep_eq_iff hd, tailRep_idem hd]

theorem mergedSet_spec {P : NodeId → Prop} {f : Fbas}
    {g : Option Groupings} {gs : List Grouping} (hg : MadeFrom g gs f) (hd : DisjointGroups gs)
    (he : MembersExist gs f) {T M : NodeSet} (hT : ∀ x, x ∈ T ↔ P x)
    (hlt : ∀ x ∈ T, x < f.nodes.length) (hM : MergedSet g T M) : GroupsOf gs f P M := by
  intro y
  rcases hg with ⟨rfl, rfl⟩ | ⟨g', rfl, hg⟩
  · obtain rfl : M = T := hM
    unfold Representative SameGroup
    simp only [List.not_mem_nil, false_and, exists_false, or_false, exists_eq_right,
      IsEmpty.forall_iff, implies_true, and_true, ← hT]
    exact ⟨fun h => ⟨hlt y h, h⟩, fun h => h.2⟩
  · obtain ⟨r', h1, h2⟩ := C32_single_set f ⟨T⟩ hlt gs g' hg hd he
    have : g'.mergeNodeSet T = .ok M := hM
    unfold SetResult.mergedByGroup at h1
    rw [show (SetResult.mk T).nodeSet = T from rfl, this] at h1
    obtain rfl := Except.ok.inj h1
    have := h2 y
    simp only [SetResult.unwrap, hT] at this
    exact this

/-! ### Names of results -/

theorem names_append (l l' : List Line) :
    (results (l ++ l')).map Prod.fst = (results l).map Prod.fst ++ (results l').map Prod.fst := by
  rw [results_append, List.map_append]

open Classical in
/-- The names that are printed, in this order. -/
theorem Run.names (hr : Run env order opts f g gs lines) :
    (results lines).map Prod.fst =
      ["nodes_total"] ++ (if g.isSome then ["nodes_total_merged"] else []) ++ ["symmetric_clusters"] ++
      (if opts.todos.1 then ["minimal_quorums"] else []) ++
      (if opts.dontCheck then [] else ["has_quorum_intersection"]) ++
      (if ∃ v L, UsesAlternative opts ∧
          answerAfter env f (callsQ opts) .alternativeCheck = .ok (.verdict v (some L))
        then ["nonintersecting_quorums"] else []) ++
      (if opts.todos.2.1 then ["minimal_blocking_sets"] else []) ++
      (if opts.todos.2.2 then ["minimal_splitting_sets"] else []) ++
      (if opts.todos.1 || opts.todos.2.1 || opts.todos.2.2 then ["top_tier"] else []) := by
  obtain ⟨-, -, -, -, l₁, l₂, l₃, l₄, l₅, l₆, l₇, rfl, p1, p2, p3, p4, p5, p6, p7⟩ := hr.spec
  simp only [names_append, results_init, results_comment, List.map_nil, List.nil_append, List.append_nil]
  have hsets : ∀ {b : Bool} {hist : List Call} {c : Call} {nm : String} {cm : ℕ → Comment}
      {l : List Line}, Opt b (SetsPart env ⟨opts.resultsOnly, opts.pretty, opts.describe, f, g⟩ gs hist c
        nm cm) l → (results l).map Prod.fst = if b then [nm] else [] := by
    intro b hist c nm cm l hp
    unfold Opt at hp
    cases b with
    | false =>
      simp only [Bool.false_eq_true, ↓reduceIte] at hp
      subst hp
      rfl
    | true =>
      simp only [↓reduceIte] at hp
      obtain ⟨L, M, j', h1, h2, h3, h4, rfl⟩ := hp
      simp only [List.cons_append, results_result, results_duration,
        List.nil_append, results_comment, List.map_cons, List.map_nil, ↓reduceIte]
  have e1 : (results l₁).map Prod.fst = "nodes_total" :: if g.isSome then ["nodes_total_merged"] else [] := by
    unfold OverviewPart at p1
    dsimp only at p1
    cases g with
    | none =>
      subst p1
      rfl
    | some g' =>
      obtain ⟨M, hM, rfl⟩ := p1
      simp only [List.cons_append, results_result, List.nil_append, results_comment, List.map_cons,
        List.map_nil, Option.isSome_some, ↓reduceIte]
  have e2 : (results l₂).map Prod.fst = ["symmetric_clusters"] := by
    obtain ⟨L, M, j', h1, h2, h3, rfl⟩ := p2
    simp only [List.cons_append, results_result, results_duration,
      List.nil_append, results_comment, List.map_cons, List.map_nil]
  have e4 : (results l₄).map Prod.fst = (if opts.dontCheck then [] else ["has_quorum_intersection"]) ++
      (if ∃ v L, UsesAlternative opts ∧
          answerAfter env f (callsQ opts) .alternativeCheck = .ok (.verdict v (some L))
        then ["nonintersecting_quorums"] else []) := by
    unfold Opt at p4
    unfold UsesAlternative
    cases hd : opts.dontCheck with
    | true =>
      simp only [hd, Bool.not_true, Bool.false_eq_true, ↓reduceIte] at p4
      subst p4
      simp [results]
    | false =>
      simp only [hd, Bool.not_false, ↓reduceIte] at p4
      unfold IntersectionPart at p4
      cases ha : opts.alternativeCheck with
      | false =>
        simp only [ha, Bool.false_eq_true, ↓reduceIte] at p4
        obtain ⟨v, h1, rfl⟩ := p4
        simp [results_result, results_duration, results_comment]
      | true =>
        simp only [ha, ↓reduceIte] at p4
        obtain ⟨v, w, l', h1, h2, rfl⟩ := p4
        simp only [names_append, results_comment, List.append_nil, List.nil_append,
          results_result, results_duration, results_nil, List.map_cons, List.map_nil, Bool.false_eq_true,
          ↓reduceIte, true_and]
        rw [h1]
        cases w with
        | none =>
          dsimp only at h2
          subst h2
          simp [results]
        | some L =>
          obtain ⟨j', h3, rfl⟩ := h2
          rw [if_pos ⟨v, L, rfl⟩]
          rfl
  have e7 : (results l₇).map Prod.fst =
      if opts.todos.1 || opts.todos.2.1 || opts.todos.2.2 then ["top_tier"] else [] := by
    unfold Opt at p7
    cases hb : (opts.todos.1 || opts.todos.2.1 || opts.todos.2.2) with
    | false =>
      simp only [hb, Bool.false_eq_true, ↓reduceIte] at p7
      subst p7
      rfl
    | true =>
      simp only [hb, ↓reduceIte] at p7
      obtain ⟨T, M, j', h1, h2, h3, h4, rfl⟩ := p7
      simp only [List.cons_append, results_result,
        List.nil_append, results_comment, List.map_cons, List.map_nil, ↓reduceIte]
  rw [e1, e2, hsets p3, e4, hsets p5, hsets p6, e7]
  simp only [List.append_assoc, List.cons_append, List.nil_append]

/-! ### Comments -/

/-- What a comment says. -/
inductive IsComment (env : Env) (opts : Options) (f : Fbas) (g : Option Groupings) (gs : List Grouping) :
    Comment → Prop
  | newline : IsComment env opts f g gs .newline
  | nodeIds (h : opts.pretty = false) : IsComment env opts f g gs .nodeIds
  | describeFormat (h : opts.describe = true) : IsComment env opts f g gs .describeFormat
  | countedAsOne (h : g ≠ none) : IsComment env opts f g gs .countedAsOne
  | alternativeCheck (h : UsesAlternative opts) : IsComment env opts f g gs .alternativeCheck
  | verdict {v : Bool} (hd : opts.dontCheck = false)
      (hv : (opts.alternativeCheck = false ∧
          answerAfter env f (callsQ opts) .hasQuorumIntersection = .ok (.bool v)) ∨
        (opts.alternativeCheck = true ∧
          ∃ w, answerAfter env f (callsQ opts) .alternativeCheck = .ok (.verdict v w))) :
      IsComment env opts f g gs (if v then .allIntersect else .notAllIntersect)
  | quorums {L} (hb : opts.todos.1 = true)
      (hL : answerAfter env f [] .minimalQuorums = .ok (.sets L)) :
      IsComment env opts f g gs (.foundQuorums L.length)
  | blocking {L} (hb : opts.todos.2.1 = true)
      (hL : answerAfter env f (callsC opts) .minimalBlockingSets = .ok (.sets L)) :
      IsComment env opts f g gs (.foundBlockingSets L.length)
  | splitting {L} (hb : opts.todos.2.2 = true)
      (hL : answerAfter env f (callsB opts) .minimalSplittingSets = .ok (.sets L)) :
      IsComment env opts f g gs (.foundSplittingSets L.length)
  | topTier {T M j} (hT : answerAfter env f (callsS opts) .topTier = .ok (.set T)) (hM : MergedSet g T M)
      (hlt : ∀ x ∈ T, x < f.nodes.length) (hj : ShowsSet opts.pretty gs f M j) :
      IsComment env opts f g gs (.distinctNodes M.card)

theorem mem_comment {o : Output} {c c' : Comment} :
    Line.comment c ∈ o.comment c' ↔ o.resultsOnly = false ∧ c = c' := by
  unfold Output.comment
  cases o.resultsOnly <;> simp

theorem Run.comment (hr : Run env order opts f g gs lines) {c : Comment} (h : .comment c ∈ lines) :
    opts.resultsOnly = false ∧ IsComment env opts f g gs c := by
  obtain ⟨-, -, -, -, l₁, l₂, l₃, l₄, l₅, l₆, l₇, rfl, p1, p2, p3, p4, p5, p6, p7⟩ := hr.spec
  have hsets : ∀ {b : Bool} {hist : List Call} {c' : Call} {nm : String} {cm : ℕ → Comment}
      {l : List Line}, Opt b (SetsPart env ⟨opts.resultsOnly, opts.pretty, opts.describe, f, g⟩ gs hist c'
        nm cm) l → .comment c ∈ l → opts.resultsOnly = false ∧ b = true ∧ ∃ L,
          answerAfter env f hist c' = .ok (.sets L) ∧ c = cm L.length := by
    intro b hist c' nm cm l hp hm
    unfold Opt at hp
    cases b with
    | false =>
      simp only [Bool.false_eq_true, ↓reduceIte] at hp
      subst hp
      simp at hm
    | true =>
      simp only [↓reduceIte] at hp
      obtain ⟨L, M, j', h1, h2, h3, h4, rfl⟩ := hp
      simp only [List.cons_append, List.nil_append, List.mem_cons, reduceCtorEq, false_or,
        mem_comment] at hm
      exact ⟨hm.1, rfl, L, h1, hm.2⟩
  simp only [List.mem_append, mem_comment] at h
  rcases h with (((((((h | h) | h) | h) | h) | h) | h) | h) | h
  · unfold Output.init at h
    cases hro : opts.resultsOnly with
    | true => simp [hro] at h
    | false =>
      refine ⟨rfl, ?_⟩
      simp only [hro, Bool.false_eq_true, ↓reduceIte, List.mem_append] at h
      rcases h with h | h
      · cases hp : opts.pretty with
        | true => simp [hp] at h
        | false =>
          simp only [hp, Bool.false_eq_true, ↓reduceIte, List.mem_singleton, Line.comment.injEq] at h
          subst h
          exact .nodeIds hp
      · cases hp : opts.describe with
        | false => simp [hp] at h
        | true =>
          simp only [hp, ↓reduceIte, List.mem_singleton, Line.comment.injEq] at h
          subst h
          exact .describeFormat hp
  · unfold OverviewPart at p1
    dsimp only at p1
    cases g with
    | none =>
      subst p1
      simp at h
    | some g' =>
      obtain ⟨M, hM, rfl⟩ := p1
      simp only [List.cons_append, List.nil_append, List.mem_cons, reduceCtorEq, false_or,
        mem_comment] at h
      obtain ⟨h1, rfl⟩ := h
      exact ⟨h1, .countedAsOne (by simp)⟩
  · obtain ⟨h1, rfl⟩ := h
    exact ⟨h1, .newline⟩
  · obtain ⟨L, M, j', h1, h2, h3, rfl⟩ := p2
    simp only [List.cons_append, List.nil_append, List.mem_cons, reduceCtorEq, false_or,
      mem_comment] at h
    obtain ⟨h1, rfl⟩ := h
    exact ⟨h1, .newline⟩
  · obtain ⟨h1, hb, L, h2, rfl⟩ := hsets p3 h
    exact ⟨h1, .quorums hb h2⟩
  · unfold Opt at p4
    cases hd : opts.dontCheck with
    | true =>
      simp only [hd, Bool.not_true, Bool.false_eq_true, ↓reduceIte] at p4
      subst p4
      simp at h
    | false =>
      simp only [hd, Bool.not_false, ↓reduceIte] at p4
      unfold IntersectionPart at p4
      cases ha : opts.alternativeCheck with
      | false =>
        simp only [ha, Bool.false_eq_true, ↓reduceIte] at p4
        obtain ⟨v, h1, rfl⟩ := p4
        simp only [List.cons_append, List.nil_append, List.mem_cons, reduceCtorEq, false_or,
          mem_comment] at h
        obtain ⟨h2, rfl⟩ := h
        exact ⟨h2, .verdict hd (.inl ⟨ha, h1⟩)⟩
      | true =>
        simp only [ha, ↓reduceIte] at p4
        obtain ⟨v, w, l', h1, h2, rfl⟩ := p4
        simp only [List.mem_append, mem_comment, List.mem_cons, reduceCtorEq, List.not_mem_nil,
          or_false] at h
        rcases h with (⟨h3, rfl⟩ | h) | ⟨h3, rfl⟩
        · exact ⟨h3, .alternativeCheck ⟨hd, ha⟩⟩
        · cases w with
          | none =>
            dsimp only at h2
            subst h2
            simp at h
          | some L =>
            obtain ⟨j', h3, rfl⟩ := h2
            simp at h
        · exact ⟨h3, .verdict hd (.inr ⟨ha, w, h1⟩)⟩
  · obtain ⟨h1, hb, L, h2, rfl⟩ := hsets p5 h
    exact ⟨h1, .blocking hb h2⟩
  · obtain ⟨h1, hb, L, h2, rfl⟩ := hsets p6 h
    exact ⟨h1, .splitting hb h2⟩
  · unfold Opt at p7
    cases hb : (opts.todos.1 || opts.todos.2.1 || opts.todos.2.2) with
    | false =>
      simp only [hb, Bool.false_eq_true, ↓reduceIte] at p7
      subst p7
      simp at h
    | true =>
      simp only [hb, ↓reduceIte] at p7
      obtain ⟨T, M, j', h1, h2, h3, h4, rfl⟩ := p7
      simp only [List.cons_append, List.nil_append, List.mem_cons, reduceCtorEq, false_or,
        mem_comment] at h
      obtain ⟨h5, rfl⟩ := h
      exact ⟨h5, .topTier h1 h2 h3 h4⟩

/-! ### The specification determines what is printed -/

theorem sorted_unique {v w : List NodeId} (hv : v.Pairwise (· < ·)) (hw : w.Pairwise (· < ·))
    (h : v.toFinset = w.toFinset) : v = w := by
  refine List.Perm.eq_of_pairwise' (r := (· ≤ ·)) (hv.imp le_of_lt) (hw.imp le_of_lt) ?_
  exact (List.perm_ext_iff_of_nodup (hv.imp ne_of_lt) (hw.imp ne_of_lt)).2 (fun x => by
    rw [← List.mem_toFinset, h, List.mem_toFinset])

theorem forall₂_unique {α β : Type*} {R : α → β → Prop} (hR : ∀ a b b', R a b → R a b' → b = b') :
    ∀ {l : List α} {m m' : List β}, List.Forall₂ R l m → List.Forall₂ R l m' → m = m'
  | [], _, _, .nil, .nil => rfl
  | _ :: _, _, _, .cons h t, .cons h' t' => by rw [hR _ _ _ h h', forall₂_unique hR t t']

theorem shownAs_unique (gs : List Grouping) (f : Fbas) (x : NodeId) (a b : String)
    (ha : ShownAs gs f x a) (hb : ShownAs gs f x b) : a = b := by
  rcases ha with ⟨i, o, h1, h2, rfl, h3⟩ | ⟨h1, h2⟩ <;> rcases hb with ⟨i', o', h1', h2', rfl, h3'⟩ | ⟨h1', h2'⟩
  · rcases lt_trichotomy i i' with h | rfl | h
    · exact absurd h2' (h3 _ _ h h1')
    · rw [h1] at h1'
      cases h1'
      rfl
    · exact absurd h2 (h3' _ _ h h1)
  · exact absurd h2 (h1' o (List.mem_of_getElem? h1))
  · exact absurd h2' (h1 o' (List.mem_of_getElem? h1'))
  · rw [h2] at h2'
    exact Option.some.inj h2'

theorem listsIds_unique {S : NodeSet} {j j' : Json} (h : ListsIds S j) (h' : ListsIds S j') : j = j' := by
  obtain ⟨v, h1, h2, rfl⟩ := h
  obtain ⟨w, h1', h2', rfl⟩ := h'
  rw [sorted_unique h1 h1' (h2.trans h2'.symm)]

theorem listsNames_unique {gs : List Grouping} {f : Fbas} {S : NodeSet} {j j' : Json}
    (h : ListsNames (ShownAs gs f) S j) (h' : ListsNames (ShownAs gs f) S j') : j = j' := by
  obtain ⟨v, n, h1, h2, h3, rfl⟩ := h
  obtain ⟨w, n', h1', h2', h3', rfl⟩ := h'
  obtain rfl := sorted_unique h1 h1' (h2.trans h2'.symm)
  rw [forall₂_unique (shownAs_unique gs f) h3 h3']

theorem showsQSet_unique {shown : NodeId → String → Prop}
    (hs : ∀ x a b, shown x a → shown x b → a = b) {q : QuorumSet} {p : RawQuorumSet}
    (h : ShowsQSet shown q p) : ∀ p', ShowsQSet shown q p' → p = p' := by
  induction h with
  | @intro t vs names qs ps hvs hlen hin ih =>
    rintro _ (@⟨_, _, names', _, ps', hvs', hlen', hin'⟩)
    rw [forall₂_unique hs hvs hvs']
    congr 1
    refine List.ext_getElem (by omega) (fun i h1 h2 => ?_)
    have hi : i < qs.length := by omega
    exact ih i qs[i] ps[i] (List.getElem?_eq_getElem hi) (List.getElem?_eq_getElem h1) _
      (hin' i qs[i] ps'[i] (List.getElem?_eq_getElem hi) (List.getElem?_eq_getElem h2))

theorem summary_unique {l : List NodeSet} {j j' : Json} (h : Summary l j) (h' : Summary l j') : j = j' := by
  obtain ⟨lo, hi, mean, v, rfl, h1, h2, h3, h4, h5, h6⟩ := h
  obtain ⟨lo', hi', mean', v', rfl, h1', h2', h3', h4', h5', h6'⟩ := h'
  obtain ⟨rfl, rfl, rfl⟩ : lo = lo' ∧ hi = hi' ∧ mean = mean' := by
    by_cases hl : l = []
    · obtain ⟨rfl, rfl, rfl⟩ := h3 hl
      obtain ⟨rfl, rfl, rfl⟩ := h3' hl
      exact ⟨rfl, rfl, rfl⟩
    · obtain ⟨⟨A, a1, rfl⟩, B, b1, rfl⟩ := h2 hl
      obtain ⟨⟨A', a1', rfl⟩, B', b1', rfl⟩ := h2' hl
      refine ⟨le_antisymm (h1 _ a1').1 (h1' _ a1).1, le_antisymm (h1' _ b1).2 (h1 _ b1').2, ?_⟩
      have hne : (l.length : ℚ) ≠ 0 := by
        rw [Nat.cast_ne_zero]
        exact fun e => hl (List.length_eq_zero_iff.1 e)
      exact mul_right_cancel₀ hne (h4.trans h4'.symm)
  have : v = v' := by
    refine List.ext_getElem? fun k => ?_
    by_cases hk : k < hi + 1
    · rw [h6 k hk, h6' k hk]
    · rw [List.getElem?_eq_none (by omega), List.getElem?_eq_none (by omega)]
  rw [this]

theorem showsSets_unique {d p : Bool} {gs : List Grouping} {f : Fbas} {L : List NodeSet} {j j' : Json}
    (h : ShowsSets d p gs f L j) (h' : ShowsSets d p gs f L j') : j = j' := by
  unfold ShowsSets at h h'
  cases d with
  | true =>
    simp only [↓reduceIte] at h h'
    exact summary_unique h h'
  | false =>
    simp only [Bool.false_eq_true, ↓reduceIte] at h h'
    obtain ⟨js, rfl, h⟩ := h
    obtain ⟨js', rfl, h'⟩ := h'
    cases p with
    | true =>
      simp only [↓reduceIte] at h h'
      exact congrArg Json.arr (forall₂_unique (R := ListsNames (ShownAs gs f)) (fun _ _ _ h h' => listsNames_unique h h') h h')
    | false =>
      simp only [Bool.false_eq_true, ↓reduceIte] at h h'
      exact congrArg Json.arr (forall₂_unique (R := ListsIds) (fun _ _ _ h h' => listsIds_unique h h') h h')

theorem showsSet_unique {p : Bool} {gs : List Grouping} {f : Fbas} {S : NodeSet} {j j' : Json}
    (h : ShowsSet p gs f S j) (h' : ShowsSet p gs f S j') : j = j' := by
  unfold ShowsSet at h h'
  cases p with
  | true => exact listsNames_unique h h'
  | false => exact listsIds_unique h h'

theorem showsQSets_unique {p : Bool} {gs : List Grouping} {f : Fbas} {L : List QuorumSet} {j j' : Json}
    (h : ShowsQSets p gs f L j) (h' : ShowsQSets p gs f L j') : j = j' := by
  unfold ShowsQSets at h h'
  obtain ⟨js, rfl, h⟩ := h
  obtain ⟨js', rfl, h'⟩ := h'
  cases p with
  | true =>
    simp only [↓reduceIte] at h h'
    rw [forall₂_unique (fun q a b => ?_) h h']
    rintro ⟨p, h1, rfl⟩ ⟨p', h2, rfl⟩
    rw [showsQSet_unique (shownAs_unique gs f) h1 p' h2]
  | false =>
    simp only [Bool.false_eq_true, ↓reduceIte] at h h'
    rw [(forall₂_listsQSet _ _).1 h, (forall₂_listsQSet _ _).1 h']

theorem mergedSets_unique {g : Option Groupings} {L M M' : List NodeSet} (h : MergedSets g L M)
    (h' : MergedSets g L M') : M = M' := by
  cases g with
  | none => exact Eq.trans h (Eq.symm h')
  | some g => exact Except.ok.inj (Eq.trans (Eq.symm h) h')

theorem mergedSet_unique {g : Option Groupings} {L M M' : NodeSet} (h : MergedSet g L M)
    (h' : MergedSet g L M') : M = M' := by
  cases g with
  | none => exact Eq.trans h (Eq.symm h')
  | some g => exact Except.ok.inj (Eq.trans (Eq.symm h) h')

theorem mergedQSets_unique {g : Option Groupings} {L M M' : List QuorumSet} (h : MergedQSets g L M)
    (h' : MergedQSets g L M') : M = M' := by
  cases g with
  | none => exact Eq.trans h (Eq.symm h')
  | some g => exact Except.ok.inj (Eq.trans (Eq.symm h) h')

end
end FA.Props
