import Verif.Lemmas.FileOrder
import Verif.Lemmas.MergeClusters
import Verif.Props.BulkAnalyze
import Verif.Props.InputOrder
import Verif.Ref.Decide
import Verif.Ref.Json
import Verif.Ref.Env

/-!
# C85: output of the tools for inputs in another order
-/

namespace FA.Props
open FA Spec Analysis Tool Bulk Groupings

theorem Renamed.sets {σ : Equiv.Perm ℕ} {f f' : Fbas} (h : Renamed σ f f') (hwf : WF f) {env env' : Env}
    {history : List Call} {c : Call} (hc : Calm f ∨ (¬ BlockingFirst history ∧ c ≠ .minimalBlockingSets))
    {L L' : List NodeSet} (hL : answerAfter env f history c = .ok (.sets L))
    (hL' : answerAfter env' f' history c = .ok (.sets L')) : L'.Perm (L.map (img σ)) := by
  rcases h.answers hwf env env' history c hc with ⟨h1, -⟩ | ⟨ans, ans', h1, h2, h3⟩
  · rw [hL] at h1; cases h1
  · rw [hL] at h1
    rw [hL'] at h2
    cases h1
    cases h2
    exact h3

theorem Renamed.set {σ : Equiv.Perm ℕ} {f f' : Fbas} (h : Renamed σ f f') (hwf : WF f) {env env' : Env}
    {history : List Call} {c : Call} (hc : Calm f ∨ (¬ BlockingFirst history ∧ c ≠ .minimalBlockingSets))
    {T T' : NodeSet} (hT : answerAfter env f history c = .ok (.set T))
    (hT' : answerAfter env' f' history c = .ok (.set T')) : T' = img σ T := by
  rcases h.answers hwf env env' history c hc with ⟨h1, -⟩ | ⟨ans, ans', h1, h2, h3⟩
  · rw [hT] at h1; cases h1
  · rw [hT] at h1
    rw [hT'] at h2
    cases h1
    cases h2
    exact h3

theorem Renamed.bool {σ : Equiv.Perm ℕ} {f f' : Fbas} (h : Renamed σ f f') (hwf : WF f) {env env' : Env}
    {history : List Call} {c : Call} (hc : Calm f ∨ (¬ BlockingFirst history ∧ c ≠ .minimalBlockingSets))
    {v v' : Bool} (hv : answerAfter env f history c = .ok (.bool v))
    (hv' : answerAfter env' f' history c = .ok (.bool v')) : v' = v := by
  rcases h.answers hwf env env' history c hc with ⟨h1, -⟩ | ⟨ans, ans', h1, h2, h3⟩
  · rw [hv] at h1; cases h1
  · rw [hv] at h1
    rw [hv'] at h2
    cases h1
    cases h2
    exact h3

/-! ## The bulk analyzer -/

section
variable {env env' : Env} {order order' : List String → List String} {hash : Json → String} {label : Text}
  {nodes nodes' : Json} {organizations : Option Json} {r r' : RawFbas} {d d' : DataPoint}

theorem hasInformation_iff (h : SameNetwork r r') (k : Kind) :
    HasInformation r organizations k ↔ HasInformation r' organizations k := by
  cases k with
  | nodes => exact Iff.rfl
  | orgs => exact Iff.rfl
  | isps =>
    constructor
    · rintro ⟨a, ha, hk⟩
      obtain ⟨b, hb, -, e, -⟩ := h.node ha
      exact ⟨b, hb, e ▸ hk⟩
    · rintro ⟨b, hb, hk⟩
      obtain ⟨a, ha, -, e, -⟩ := h.node' hb
      exact ⟨a, ha, e ▸ hk⟩
  | ctries =>
    constructor
    · rintro ⟨a, ha, hk⟩
      obtain ⟨b, hb, -, -, e⟩ := h.node ha
      exact ⟨b, hb, e ▸ hk⟩
    · rintro ⟨b, hb, hk⟩
      obtain ⟨a, ha, -, -, e⟩ := h.node' hb
      exact ⟨a, ha, e ▸ hk⟩

theorem join_eq_some {x : Option (Option String)} {s : String} : x.join = some s ↔ x = some (some s) := by
  cases x with
  | none => simp
  | some y => simp

/-- The second input can be processed if the first one can. -/
theorem analyze_reordered (h : SameNetwork r r') (hj : DescribesFbas nodes r)
    (hj' : DescribesFbas nodes' r') (hok : Bulk.analyze env order hash label nodes organizations = .ok d) :
    ∃ d', Bulk.analyze env' order' hash label nodes' organizations = .ok d' := by
  obtain ⟨r₁, h1, h2, h3, h4⟩ := (C69_panics_iff env order hash label nodes organizations).1 ⟨d, hok⟩
  obtain rfl := C62_unambiguous _ _ _ hj h1
  refine (C69_panics_iff env' order' hash label nodes' organizations).2 ⟨r', hj', ?_, ?_, h4⟩
  · intro b hb s hs
    obtain ⟨a, ha, -, e, -⟩ := h.node' hb
    exact h2 a ha s (e.trans hs)
  · intro b hb s hs
    obtain ⟨a, ha, -, -, e⟩ := h.node' hb
    exact h3 a ha s (join_eq_some.1 (e.trans (join_eq_some.2 hs)))

theorem notFirst_quorums : ¬ BlockingFirst [.minimalQuorums] := by
  rw [blockingFirst_cons]
  simp [Passive]

theorem notFirst_nil : ¬ BlockingFirst [] := by
  rintro ⟨pre, post, he, -⟩
  simp at he

theorem columns_reordered (hd : DistinctKeys r) (h : SameNetwork r r')
    (ho : ∀ l, (order l).Perm l) (ho' : ∀ l, (order' l).Perm l) (hj : DescribesFbas nodes r)
    (hj' : DescribesFbas nodes' r') (hok : Bulk.analyze env order hash label nodes organizations = .ok d)
    (hok' : Bulk.analyze env' order' hash label nodes' organizations = .ok d') (k : Kind) :
    d'.hasQuorumIntersection = d.hasQuorumIntersection ∧
    (columns d' k).topTierSize = (columns d k).topTierSize ∧ (columns d' k).mq = (columns d k).mq ∧
      (columns d' k).mss = (columns d k).mss ∧
      (Calm (Fbas.fromRaw r) → (columns d' k).mbs = (columns d k).mbs) := by
  obtain ⟨r₁, g, gs, hr⟩ := exists_bulkRun hok k
  obtain rfl := C62_unambiguous _ _ _ hj hr.described
  obtain ⟨r₂, g', gs', hr'⟩ := exists_bulkRun hok' k
  obtain rfl := C62_unambiguous _ _ _ hj' hr'.described
  obtain ⟨σ, hσ⟩ := exists_moved hd h
  obtain ⟨-, v, T, Q, B, S, hv, -, e1, hn1, hf1, -⟩ := hr.spec
  obtain ⟨-, v', T', Q', B', S', hv', -, e1', hn1', hf1', -⟩ := hr'.spec
  have hwf := wf_fromRaw r
  have hq : ∀ {c}, c ≠ Call.minimalBlockingSets → Calm (Fbas.fromRaw r) ∨
      (¬ BlockingFirst [.minimalQuorums] ∧ c ≠ .minimalBlockingSets) :=
    fun hc => .inr ⟨notFirst_quorums, hc⟩
  refine ⟨?_, ?_⟩
  · rw [e1, e1']
    exact Renamed.bool hσ.renamed hwf (hq (by simp)) hv.hqi hv'.hqi
  have s1 := loadKind_some_iff order ho organizations hj k hr.groups
  have s2 := loadKind_some_iff order' ho' organizations hj' k hr'.groups
  have hiff : k = .nodes ∨ g ≠ none ↔ k = .nodes ∨ g' ≠ none :=
    s1.trans ((hasInformation_iff h k).trans s2.symm)
  by_cases hsome : k = .nodes ∨ g ≠ none
  · have hmoves : (g = none ↔ g' = none) ∧ Moves σ (Fbas.fromRaw r) (Fbas.fromRaw r') gs gs' := by
      by_cases hk : k = .nodes
      · subst hk
        obtain rfl : g = none := (Except.ok.inj hr.groups).symm
        obtain rfl : g' = none := (Except.ok.inj hr'.groups).symm
        refine ⟨Iff.rfl, ?_⟩
        rcases hr.made with ⟨-, rfl⟩ | ⟨_, h, -⟩
        · rcases hr'.made with ⟨-, rfl⟩ | ⟨_, h, -⟩
          · exact moves_map (gs := []) hσ.key
          · cases h
        · cases h
      · have hg := hsome.resolve_left hk
        have hg' := (hiff.1 hsome).resolve_left hk
        obtain ⟨gs₁, -, -, l1⟩ := loadKind_made order organizations hj k hr.groups
        obtain ⟨gs₂, -, -, l2⟩ := loadKind_made order' organizations hj' k hr'.groups
        obtain ⟨b1, b2, b3, -⟩ := kindOptions_by nodes organizations k
        obtain ⟨c1, c2, c3, -⟩ := kindOptions_by nodes' organizations k
        exact moves_of_load hd h hσ ho ho' (opts := kindOptions nodes organizations k)
          (opts' := kindOptions nodes' organizations k) hj hj' (b1.trans c1.symm) (b2.trans c2.symm)
          (fun j => (b3 j).trans (c3 j).symm) (l1 hg) (l2 hg') hr.made hr'.made
    obtain ⟨hgg, hm⟩ := hmoves
    obtain ⟨φ, hb⟩ := hm.between
    obtain ⟨T₁, Q₁, B₁, S₁, t1, q1, b1, p1, t2, q2, b2, p2⟩ := hf1 hsome
    obtain ⟨T₂, Q₂, B₂, S₂, t1', q1', b1', p1', t2', q2', b2', p2'⟩ := hf1' (hiff.1 hsome)
    have hlen := hσ.renamed.lt
    have hcols : ∀ {L L' M M' : List NodeSet} {c c'}, (∀ S ∈ L, ∀ x ∈ S, x < (Fbas.fromRaw r).nodes.length) →
        L'.Perm (L.map (img σ)) → MergedSets g L M → MergedSets g' L' M' → ShowsSizes M c →
        ShowsSizes M' c' → c' = c := by
      intro L L' M M' c c' hL hp m1 m2 z1 z2
      exact showsSizes_congr ((hb.sets hlen hr.made hr'.made hgg hL hp m1 m2).cards hb) z1 z2
    refine ⟨?_, ?_, ?_, fun hcalm => ?_⟩
    · have e := Renamed.set hσ.renamed hwf (hq (by simp)) hv.top hv'.top
      rw [e] at t1'
      obtain ⟨a1, a2⟩ := hb.set hlen hr.made hr'.made hgg hv.topLt t1 t1'
      rw [t2, t2', a1, card_between hb.inj a2]
    · exact hcols hv.quorumsLt (Renamed.sets hσ.renamed hwf (.inr ⟨notFirst_nil, by simp⟩) hv.quorums
        hv'.quorums) q1 q1' q2 q2'
    · exact hcols hv.splittingLt (Renamed.sets hσ.renamed hwf (hq (by simp)) hv.splitting hv'.splitting)
        p1 p1' p2 p2'
    · exact hcols hv.blockingLt (Renamed.sets hσ.renamed hwf (.inl hcalm) hv.blocking hv'.blocking)
        b1 b1' b2 b2'
  · have hsome' := mt hiff.2 hsome
    rw [not_or, not_not] at hsome hsome'
    rw [hn1 hsome.1 hsome.2, hn1' hsome'.1 hsome'.2]
    exact ⟨rfl, rfl, rfl, fun _ => rfl⟩

/-- A data point is determined by its columns. -/
theorem dataPoint_ext (h1 : d'.label = d.label) (h2 : d'.hasQuorumIntersection = d.hasQuorumIntersection)
    (h3 : ∀ k, columns d' k = columns d k) (h4 : d'.standardFormHash = d.standardFormHash) : d' = d := by
  have a := h3 .nodes
  have b := h3 .orgs
  have c := h3 .isps
  have e := h3 .ctries
  obtain ⟨⟩ := d
  obtain ⟨⟩ := d'
  simp only [columns, Columns.mk.injEq, Prod.mk.injEq, Option.some.injEq] at a b c e
  simp only at h1 h2 h4
  simp only [DataPoint.mk.injEq]
  tauto

/-- C85: The data point computed for a network does not depend on the order in which the files list nodes
and the entries of quorum sets: not a single column changes. The public keys have to be different. Also, no
quorum set may list a node twice, or no single node may be a quorum.

Missing for the full statement: quorum sets that list a node twice when a single node is a quorum. Then it is
false (`C85_counterexample`), except for the columns that are not about blocking sets
(`C85_other_columns`). -/
theorem C85_data_point_partial (hd : DistinctKeys r) (h : SameNetwork r r')
    (hn : (∀ x q, HasQSet (Fbas.fromRaw r) x q → DupFree q) ∨ ∀ x, ¬ IsQuorum (Fbas.fromRaw r) {x})
    (ho : ∀ l, (order l).Perm l) (ho' : ∀ l, (order' l).Perm l) (hj : DescribesFbas nodes r)
    (hj' : DescribesFbas nodes' r') (hok : Bulk.analyze env order hash label nodes organizations = .ok d) :
    Bulk.analyze env' order' hash label nodes' organizations = .ok d := by
  obtain ⟨d', hok'⟩ := analyze_reordered (env' := env') (order' := order') h hj hj' hok
  have hcalm : Calm (Fbas.fromRaw r) := hn.imp Checked.noRepeats_of id
  have hc := columns_reordered hd h ho ho' hj hj' hok hok'
  obtain ⟨r₁, g, gs, hr⟩ := exists_bulkRun hok .nodes
  obtain rfl := C62_unambiguous _ _ _ hj hr.described
  obtain ⟨r₂, g', gs', hr'⟩ := exists_bulkRun hok' .nodes
  obtain rfl := C62_unambiguous _ _ _ hj' hr'.described
  rw [hok']
  congr 1
  refine dataPoint_ext ?_ (hc .nodes).1 (fun k => ?_) (C69_hash hr hr' hd h.reordered).symm
  · rw [(C69_has_quorum_intersection hr).1, (C69_has_quorum_intersection hr').1]
  · obtain ⟨-, h1, h2, h3, h4⟩ := hc k
    have h4 := h4 hcalm
    generalize columns d k = a at *
    generalize columns d' k = b at *
    obtain ⟨⟩ := a
    obtain ⟨⟩ := b
    simp only at h1 h2 h3 h4
    rw [h1, h2, h3, h4]

/-- C85: Without conditions on the quorum sets, all columns that are not about blocking sets are the same,
and one input makes the bulk analyzer panic iff the other one does. -/
theorem C85_other_columns (hd : DistinctKeys r) (h : SameNetwork r r')
    (ho : ∀ l, (order l).Perm l) (ho' : ∀ l, (order' l).Perm l) (hj : DescribesFbas nodes r)
    (hj' : DescribesFbas nodes' r') (hok : Bulk.analyze env order hash label nodes organizations = .ok d) :
    ∃ d', Bulk.analyze env' order' hash label nodes' organizations = .ok d' ∧ d'.label = d.label ∧
      d'.hasQuorumIntersection = d.hasQuorumIntersection ∧ d'.standardFormHash = d.standardFormHash ∧
      ∀ k, (columns d' k).topTierSize = (columns d k).topTierSize ∧ (columns d' k).mq = (columns d k).mq ∧
        (columns d' k).mss = (columns d k).mss := by
  obtain ⟨d', hok'⟩ := analyze_reordered (env' := env') (order' := order') h hj hj' hok
  have hc := columns_reordered hd h ho ho' hj hj' hok hok'
  obtain ⟨r₁, g, gs, hr⟩ := exists_bulkRun hok .nodes
  obtain rfl := C62_unambiguous _ _ _ hj hr.described
  obtain ⟨r₂, g', gs', hr'⟩ := exists_bulkRun hok' .nodes
  obtain rfl := C62_unambiguous _ _ _ hj' hr'.described
  refine ⟨d', hok', ?_, (hc .nodes).1, (C69_hash hr hr' hd h.reordered).symm,
    fun k => ⟨(hc k).2.1, (hc k).2.2.1, (hc k).2.2.2.1⟩⟩
  rw [(C69_has_quorum_intersection hr).1, (C69_has_quorum_intersection hr').1]

end

/-! ## The command line tool -/

section
variable {σ : Equiv.Perm ℕ} {f f' : Fbas} {gs gs' : List Grouping} {φ : ℕ → ℕ}

/-- The names of the nodes of a set are listed for the corresponding set. -/
theorem between_sameNames (hb : Between σ f f' gs gs' φ) {S : NodeSet}
    (hS : FromNodes (fun x => tailRep x gs x) f.nodes.length S) {j j' : Json}
    (h : ListsNames (ShownAs gs f) S j) (h' : ListsNames (ShownAs gs' f') (S.image φ) j') : SameNames j j' := by
  obtain ⟨v, nm, hv, rfl, hs, rfl⟩ := h
  obtain ⟨v', nm', hv', he, hs', rfl⟩ := h'
  refine ⟨nm, nm', rfl, rfl, ?_⟩
  have hinj : ∀ x ∈ v, ∀ y ∈ v, φ x = φ y → x = y := by
    intro x hx y hy hxy
    obtain ⟨a, ha, rfl⟩ := hS x (List.mem_toFinset.2 hx)
    obtain ⟨b, hb', rfl⟩ := hS y (List.mem_toFinset.2 hy)
    exact hb.inj a b ha hb' hxy
  have hnd : v.Nodup := hv.imp (fun h => Nat.ne_of_lt h)
  have hnd' : v'.Nodup := hv'.imp (fun h => Nat.ne_of_lt h)
  have hp : (v.map φ).Perm v' := by
    refine (List.perm_ext_iff_of_nodup (hnd.map_on hinj) hnd').2 fun x => ?_
    have := Finset.ext_iff.1 he x
    rw [List.mem_toFinset, Finset.mem_image] at this
    rw [this, List.mem_map]
    simp
  have hs2 : List.Forall₂ (ShownAs gs' f') (v.map φ) nm := by
    rw [List.forall₂_map_left_iff]
    refine (List.forall₂_iff_get.2 ⟨hs.length_eq, fun i h1 h2 => ?_⟩)
    have hm : v.get ⟨i, h1⟩ ∈ v := List.get_mem _ _
    obtain ⟨a, ha, e⟩ := hS _ (List.mem_toFinset.2 hm)
    have := (List.forall₂_iff_get.1 hs).2 i h1 h2
    rw [← e] at this ⊢
    exact (hb.shown a ha _).1 this
  obtain ⟨l, h1, h2⟩ := List.perm_comp_forall₂ hp.symm hs2
  rw [forall₂_unique (shownAs_unique gs' f') hs' h1]
  exact h2.symm

theorem movedSets_sameSets (hb : Between σ f f' gs gs' φ) {M M' : List NodeSet} (h : MovedSets f gs φ M M')
    {js js' : List Json} (hj : List.Forall₂ (ListsNames (ShownAs gs f)) M js)
    (hj' : List.Forall₂ (ListsNames (ShownAs gs' f')) M' js') :
    SameSetsOfNames (.arr js) (.arr js') := by
  have hj2 : List.Forall₂ (fun T j => ∃ S, FromNodes (fun x => tailRep x gs x) f.nodes.length S ∧
      T = S.image φ ∧ ListsNames (ShownAs gs f) S j) (M.map (Finset.image φ)) js := by
    rw [List.forall₂_map_left_iff]
    refine List.forall₂_iff_get.2 ⟨hj.length_eq, fun i h1 h2 => ?_⟩
    exact ⟨_, h.from' _ (List.get_mem _ _), rfl, (List.forall₂_iff_get.1 hj).2 i h1 h2⟩
  obtain ⟨l, h1, h2⟩ := List.perm_comp_forall₂ h.perm hj2
  refine ⟨js, js', l, rfl, rfl, h2.symm, List.forall₂_iff_get.2
    ⟨h1.length_eq.symm.trans hj'.length_eq, fun i a b => ?_⟩⟩
  have c : i < M'.length := h1.length_eq ▸ a
  obtain ⟨S, hS, e, hn⟩ := (List.forall₂_iff_get.1 h1).2 i c a
  have hn' := (List.forall₂_iff_get.1 hj').2 i c b
  rw [e] at hn'
  exact between_sameNames hb hS hn hn'

end

theorem length_moved {σ : Equiv.Perm ℕ} {n m : ℕ} (h : ∀ x, σ x < m ↔ x < n) : m = n := by
  have e : Finset.range m = (Finset.range n).image σ := by
    ext x
    obtain ⟨x, rfl⟩ := σ.surjective x
    rw [Finset.mem_range, h, Finset.mem_image]
    simp
  rw [← Finset.card_range m, e, Finset.card_image_of_injective _ σ.injective, Finset.card_range]

section
variable {env env' : Env} {order order' : List String → List String} {opts : Options} {nodes' : Json}
  {r r' : RawFbas} {lines lines' : List Line}

theorem main_reordered (hd : DistinctKeys r) (h : SameNetwork r r') (hj : DescribesFbas opts.nodes r)
    (hj' : DescribesFbas nodes' r') (hok : Tool.main env order opts = .ok lines) :
    ∃ lines', Tool.main env' order' { opts with nodes := nodes' } = .ok lines' := by
  obtain ⟨r₁, h1, h2, h3, h4, h5⟩ := (C65_panics_iff env order opts).1 ⟨lines, hok⟩
  obtain rfl := C62_unambiguous _ _ _ hj h1
  obtain ⟨σ, hσ⟩ := exists_moved hd h
  refine (C65_panics_iff env' order' { opts with nodes := nodes' }).2 ⟨r', hj', ?_, ?_, h4, ?_⟩
  · intro hb b hb' s hs
    obtain ⟨a, ha, -, -, e⟩ := h.node' hb'
    exact h2 hb a ha s (join_eq_some.1 (e.trans (join_eq_some.2 hs)))
  · intro hb b hb' s hs
    obtain ⟨a, ha, -, e, -⟩ := h.node' hb'
    exact h3 hb a ha s (e.trans hs)
  · intro ha
    obtain ⟨Q, hQ⟩ := h5 ha
    exact ⟨img σ Q, hσ.renamed.isQuorum.2 hQ⟩

theorem results_reordered (hd : DistinctKeys r) (h : SameNetwork r r')
    (ho : ∀ l, (order l).Perm l) (ho' : ∀ l, (order' l).Perm l) (hj : DescribesFbas opts.nodes r)
    (hj' : DescribesFbas nodes' r') (hok : Tool.main env order opts = .ok lines)
    (hok' : Tool.main env' order' { opts with nodes := nodes' } = .ok lines') :
    (results lines').map Prod.fst = (results lines).map Prod.fst ∧
    ∀ name j j', (name, j) ∈ results lines → (name, j') ∈ results lines' →
      Calm (Fbas.fromRaw r) ∨ (¬ BlockingSetsFirst opts ∧ name ≠ "minimal_blocking_sets") →
      SaysTheSame opts name j j' := by
  obtain ⟨f, g, gs, hr⟩ := exists_run hok
  obtain ⟨f', g', gs', hr'⟩ := exists_run hok'
  obtain ⟨r₁, h1, rfl⟩ := ((C62_nodes opts.nodes).1 f).1 hr.nodes
  obtain rfl := C62_unambiguous _ _ _ hj h1
  obtain ⟨r₂, h2, rfl⟩ := ((C62_nodes nodes').1 f').1 hr'.nodes
  obtain rfl := C62_unambiguous _ _ _ hj' h2
  obtain ⟨σ, hσ⟩ := exists_moved hd h
  have hwf := wf_fromRaw r
  have hlen := hσ.renamed.lt
  obtain ⟨hgg, hm⟩ := moves_of_load hd h hσ ho ho' (opts := opts) (opts' := { opts with nodes := nodes' })
    hj hj' Iff.rfl Iff.rfl (fun _ => Iff.rfl) hr.groups hr'.groups hr.made hr'.made
  obtain ⟨φ, hb⟩ := hm.between
  refine ⟨?_, ?_⟩
  · rw [C65_names hr, C65_names hr']
    refine congrArg (· ++ _) (congrArg (· ++ _) (congrArg (· ++ _) (congrArg (HAppend.hAppend _) ?_)))
    exact @if_congr _ _ _ (_) (_) _ _ _ _ (and_congr_right fun _ => not_congr
      hσ.renamed.quorumIntersection) rfl rfl
  intro name j j' hn hn' hc
  have e1 := hr.result hn
  have e2 := hr'.result hn'
  have hsets : ∀ {history : List Call} {c : Call} {L L' M M' : List NodeSet},
      Calm (Fbas.fromRaw r) ∨ (¬ BlockingFirst history ∧ c ≠ .minimalBlockingSets) →
      answerAfter env (Fbas.fromRaw r) history c = .ok (.sets L) →
      answerAfter env' (Fbas.fromRaw r') history c = .ok (.sets L') →
      (∀ S ∈ L, ∀ x ∈ S, x < (Fbas.fromRaw r).nodes.length) → MergedSets g L M → MergedSets g' L' M' →
      ShowsSets opts.describe opts.pretty gs (Fbas.fromRaw r) M j →
      ShowsSets opts.describe opts.pretty gs' (Fbas.fromRaw r') M' j' →
      if opts.describe = true then j' = j else opts.pretty = true → SameSetsOfNames j j' := by
    intro history c L L' M M' hc hL hL' hlt hM hM' hs hs'
    have hms := hb.sets hlen hr.made hr'.made hgg hlt (Renamed.sets hσ.renamed hwf hc hL hL') hM hM'
    unfold ShowsSets at hs hs'
    split
    · rename_i hdesc
      rw [if_pos hdesc] at hs hs'
      exact summary_congr (hms.cards hb) (hms.union hb) hs hs'
    · rename_i hdesc
      rw [if_neg hdesc] at hs hs'
      intro hp
      obtain ⟨js, rfl, hs⟩ := hs
      obtain ⟨js', rfl, hs'⟩ := hs'
      rw [if_pos hp] at hs hs'
      exact movedSets_sameSets hb hms hs hs'
  have hB : ¬ BlockingSetsFirst opts →
      ¬ BlockingFirst (callsB opts) ∧ ¬ BlockingFirst (callsS opts) := fun h =>
    ⟨mt startsWithBlockingSets_iff.2 (not_starts_callsB h).1,
     mt startsWithBlockingSets_iff.2 (not_starts_callsB h).2⟩
  have hQ : ¬ BlockingFirst (callsQ opts) := fun h => not_starts_of_not_mem (not_mem_callsQ opts)
    (startsWithBlockingSets_iff.2 h)
  unfold SaysTheSame
  cases e1 with
  | nodes =>
    generalize hnm : "nodes_total" = nm at e2
    cases e2 with
    | nodes =>
      refine ⟨fun _ => ?_, by simp, by simp⟩
      rw [length_moved hlen]
    | _ => simp at hnm
  | merged hg hM =>
    generalize hnm : "nodes_total_merged" = nm at e2
    cases e2 with
    | merged hg' hM' =>
      refine ⟨fun _ => ?_, by simp, by simp⟩
      have e : Finset.range (Fbas.fromRaw r').nodes.length =
          img σ (Finset.range (Fbas.fromRaw r).nodes.length) := by
        ext x
        obtain ⟨x, rfl⟩ := σ.surjective x
        rw [apply_mem_img, Finset.mem_range, Finset.mem_range, hlen]
      rw [e] at hM'
      subst hg hg'
      obtain ⟨a1, a2⟩ := hb.set hlen hr.made hr'.made hgg (fun x hx => Finset.mem_range.1 hx) hM hM'
      rw [a1, card_between hb.inj a2]
    | _ => simp at hnm
  | clusters => simp
  | quorums _ hL hM hlt hs =>
    generalize hnm : "minimal_quorums" = nm at e2
    cases e2 with
    | quorums _ hL' hM' hlt' hs' => 
      simp only [List.mem_cons, List.not_mem_nil]
      refine ⟨by simp, fun _ => hsets (.inr ⟨notFirst_nil, by simp⟩) hL hL' hlt hM hM' hs hs', by simp⟩
    | _ => simp at hnm
  | intersection _ ha hv =>
    generalize hnm : "has_quorum_intersection" = nm at e2
    cases e2 with
    | intersection _ ha' hv' =>
      refine ⟨fun _ => ?_, by simp, by simp⟩
      rw [Renamed.bool hσ.renamed hwf (.inr ⟨hQ, by simp⟩) hv hv']
    | alternative _ ha' hv' => exact absurd (ha.symm.trans ha') (by simp)
    | _ => simp at hnm
  | alternative _ ha hv =>
    generalize hnm : "has_quorum_intersection" = nm at e2
    cases e2 with
    | intersection _ ha' hv' => exact absurd (ha.symm.trans ha') (by simp)
    | alternative _ ha' hv' =>
      refine ⟨fun _ => ?_, by simp, by simp⟩
      rcases hσ.renamed.answers hwf env env' (callsQ opts) .alternativeCheck (.inr ⟨hQ, by simp⟩) with
        ⟨a, -⟩ | ⟨ans, ans', a, b, c⟩
      · rw [hv] at a; cases a
      · rw [hv] at a
        rw [show callsQ opts = callsQ { opts with nodes := nodes' } from rfl, hv'] at b
        cases a
        cases b
        rw [c.1]
    | _ => simp at hnm
  | witness => simp
  | blocking _ hL hM hlt hs =>
    generalize hnm : "minimal_blocking_sets" = nm at e2
    cases e2 with
    | blocking _ hL' hM' hlt' hs' => 
      refine ⟨by simp, fun _ => hsets (.inl (hc.resolve_right (by simp))) hL hL' hlt hM hM' hs hs', by simp⟩
    | _ => simp at hnm
  | splitting _ hL hM hlt hs =>
    generalize hnm : "minimal_splitting_sets" = nm at e2
    cases e2 with
    | splitting _ hL' hM' hlt' hs' => 
      refine ⟨by simp, fun _ => hsets (hc.imp_right fun h => ⟨(hB h.1).1, by simp⟩) hL hL' hlt hM hM' hs hs', by simp⟩
    | _ => simp at hnm
  | topTier _ hT hM hlt hs =>
    generalize hnm : "top_tier" = nm at e2
    cases e2 with
    | topTier _ hT' hM' hlt' hs' =>
      refine ⟨by simp, by simp, fun _ hp => ?_⟩
      have e := Renamed.set hσ.renamed hwf (hc.imp_right fun h => ⟨(hB h.1).2, by simp⟩) hT hT'
      rw [e] at hM'
      obtain ⟨a1, a2⟩ := hb.set hlen hr.made hr'.made hgg hlt hM hM'
      unfold ShowsSet at hs hs'
      rw [if_pos hp] at hs hs'
      rw [a1] at hs'
      exact between_sameNames hb a2 hs hs'
    | _ => simp at hnm

/-- C85: For a network listed in another order, the tool prints the same results with the same content,
for every choice of options. The public keys have to be different. Also, no quorum set may list a node
twice, or no single node may be a quorum.

Missing for the full statement: quorum sets that list a node twice when a single node is a quorum. Then it is
false (`C85_tool_counterexample`), except for `C85_other_results`. Also, the order in which sets of equal size are
listed may change. For symmetric clusters, see `C85_clusters`. -/
theorem C85_tool_partial (hd : DistinctKeys r) (h : SameNetwork r r')
    (hn : (∀ x q, HasQSet (Fbas.fromRaw r) x q → DupFree q) ∨ ∀ x, ¬ IsQuorum (Fbas.fromRaw r) {x})
    (ho : ∀ l, (order l).Perm l) (ho' : ∀ l, (order' l).Perm l) (hj : DescribesFbas opts.nodes r)
    (hj' : DescribesFbas nodes' r') (hok : Tool.main env order opts = .ok lines) :
    ∃ lines', Tool.main env' order' { opts with nodes := nodes' } = .ok lines' ∧
      (results lines').map Prod.fst = (results lines).map Prod.fst ∧
      ∀ name j j', (name, j) ∈ results lines → (name, j') ∈ results lines' → SaysTheSame opts name j j' := by
  obtain ⟨lines', hok'⟩ := main_reordered (env' := env') (order' := order') hd h hj hj' hok
  obtain ⟨h1, h2⟩ := results_reordered hd h ho ho' hj hj' hok hok'
  exact ⟨lines', hok', h1, fun name j j' a b => h2 name j j' a b (.inl (hn.imp Checked.noRepeats_of id))⟩

/-- C85: Without conditions on the quorum sets, this holds for all results except for minimal blocking sets,
unless the minimal blocking sets are the first thing that is computed. -/
theorem C85_other_results (hd : DistinctKeys r) (h : SameNetwork r r') (hb : ¬ BlockingSetsFirst opts)
    (ho : ∀ l, (order l).Perm l) (ho' : ∀ l, (order' l).Perm l) (hj : DescribesFbas opts.nodes r)
    (hj' : DescribesFbas nodes' r') (hok : Tool.main env order opts = .ok lines) :
    ∃ lines', Tool.main env' order' { opts with nodes := nodes' } = .ok lines' ∧
      (results lines').map Prod.fst = (results lines).map Prod.fst ∧
      ∀ name j j', (name, j) ∈ results lines → (name, j') ∈ results lines' →
        name ≠ "minimal_blocking_sets" → SaysTheSame opts name j j' := by
  obtain ⟨lines', hok'⟩ := main_reordered (env' := env') (order' := order') hd h hj hj' hok
  obtain ⟨h1, h2⟩ := results_reordered hd h ho ho' hj hj' hok hok'
  exact ⟨lines', hok', h1, fun name j j' a b hne => h2 name j j' a b (.inr ⟨hb, hne⟩)⟩

theorem forall₂_showsJson {R : ℕ → String → Prop} {M : List QuorumSet} {js : List Json}
    (h : List.Forall₂ (fun q j => ∃ p : RawQuorumSet, ShowsQSet R q p ∧ j = p.toJson) M js) :
    ∃ ps : List RawQuorumSet, js = ps.map RawQuorumSet.toJson ∧ List.Forall₂ (ShowsQSet R) M ps := by
  induction h with
  | nil => exact ⟨[], rfl, .nil⟩
  | cons h _ ih =>
    obtain ⟨p, h1, rfl⟩ := h
    obtain ⟨ps, rfl, h2⟩ := ih
    exact ⟨p :: ps, rfl, .cons h1 h2⟩

theorem mergedQSets_eq {g : Option Groupings} {gs : List Grouping} {f : Fbas} (hg : MadeFrom g gs f)
    {L M : List QuorumSet} (hL : ∀ q ∈ L, ∀ x, Mentions q x → x < f.nodes.length) (h : MergedQSets g L M) :
    (g = none ∧ gs = [] ∧ M = L) ∨ (g ≠ none ∧ M = L.map (mergeQ fun x => tailRep x gs x)) := by
  rcases hg with ⟨rfl, rfl⟩ | ⟨g, rfl, hg⟩
  · exact .inl ⟨rfl, rfl, h⟩
  · refine .inr ⟨by simp, ?_⟩
    have h : g.mergeQuorumSets L = .ok M := h
    rw [mergeQuorumSets_eq, mapE_ok fun q hq =>
      mergeQuorumSet_ok q (fun x hx => merge_spec hg x (hL q hq x hx))] at h
    exact (Except.ok.inj h).symm

/-- C85: For a network listed in another order, the same symmetric clusters are shown by the tool (with
`pretty`), also if they are merged by groups. Every node may be in at most one group; there are no other
conditions on the quorum sets. -/
theorem C85_clusters (hd : DistinctKeys r) (h : SameNetwork r r')
    (ho : ∀ l, (order l).Perm l) (ho' : ∀ l, (order' l).Perm l) (hj : DescribesFbas opts.nodes r)
    (hj' : DescribesFbas nodes' r') (hp : opts.pretty = true) {g : Option Groupings} {gs : List Grouping}
    (hr : Run env order opts (Fbas.fromRaw r) g gs lines) (hg : DisjointGroups gs)
    (hok' : Tool.main env' order' { opts with nodes := nodes' } = .ok lines') {j j' : Json}
    (hn : ("symmetric_clusters", j) ∈ results lines) (hn' : ("symmetric_clusters", j') ∈ results lines') :
    SameQSetsOfNames j j' := by
  obtain ⟨f', g', gs', hr'⟩ := exists_run hok'
  obtain ⟨r₂, h2, rfl⟩ := ((C62_nodes nodes').1 f').1 hr'.nodes
  obtain rfl := C62_unambiguous _ _ _ hj' h2
  obtain ⟨σ, hσ⟩ := exists_moved hd h
  obtain ⟨hgg, hm⟩ := moves_of_load hd h hσ ho ho' (opts := opts) (opts' := { opts with nodes := nodes' })
    hj hj' Iff.rfl Iff.rfl (fun _ => Iff.rfl) hr.groups hr'.groups hr.made hr'.made
  obtain ⟨φ, hb⟩ := hm.between
  have e1 := hr.result hn
  have e2 := hr'.result hn'
  generalize hnm₀ : "symmetric_clusters" = nm₀ at e1
  cases e1 with
  | @clusters L M _ hL hM hs =>
    generalize hnm : "symmetric_clusters" = nm at e2
    cases e2 with
    | @clusters L' M' _ hL' hM' hs' =>
      obtain ⟨L₁, L₁', a1, a2, a3, a4⟩ := hσ.renamed.symClusters (wf_fromRaw r) env env'
      rw [hL] at a1
      rw [hL'] at a2
      obtain rfl := Except.ok.inj a1
      obtain rfl := Except.ok.inj a2
      have hlt' : ∀ q ∈ L', ∀ x, Mentions q x → x < (Fbas.fromRaw r').nodes.length := by
        intro q hq x hx
        obtain ⟨L₂, b1, b2, -⟩ := C22_symmetric_clusters env' (Fbas.fromRaw r') (wf_fromRaw r')
        rw [hL'] at b1
        obtain rfl := Except.ok.inj b1
        exact (hasQSet_iff.1 (((b2 q).1 hq).1 x hx)).1
      -- the quorum sets that are shown, in the same order
      have key : ∃ K, M'.Perm K ∧ List.Forall₂ (fun q q' => QuorumSet.rename id q' = QuorumSet.rename φ q ∧
          ∀ x, Mentions q x → ∃ y, y < (Fbas.fromRaw r).nodes.length ∧ tailRep y gs y = x) M K := by
        rcases mergedQSets_eq hr.made a4 hM with ⟨n1, rfl, rfl⟩ | ⟨n1, rfl⟩
        · rcases mergedQSets_eq hr'.made hlt' hM' with ⟨n2, rfl, rfl⟩ | ⟨n2, -⟩
          · refine ⟨_, a3, ?_⟩
            rw [List.forall₂_map_right_iff, List.forall₂_same]
            intro q hq
            refine ⟨?_, fun x hx => ⟨x, a4 q hq x hx, rfl⟩⟩
            have h1 : ∀ x, x < (Fbas.fromRaw r).nodes.length → φ x = σ x := hb.apply
            have : ∀ p : QuorumSet, (∀ x, Mentions p x → x < (Fbas.fromRaw r).nodes.length) →
                QuorumSet.rename id (QuorumSet.rename σ p) = QuorumSet.rename φ p := by
              intro p hp
              induction p using QuorumSet.induct with
              | h t vs qs ih =>
                refine rename_congr (QuorumSet.rename_threshold _) ?_ ?_
                · rw [List.map_id]
                  refine (QuorumSet.rename_validators _).trans (List.Perm.of_eq (List.map_congr_left fun x hx => ?_))
                  exact (h1 x (hp x (.validator hx))).symm
                · refine ((QuorumSet.rename_inner _).map _).trans ?_
                  rw [List.map_map]
                  exact List.Perm.of_eq (List.map_congr_left fun p' hp' =>
                    ih p' hp' fun x hx => hp x (.inner hp' hx))
            exact this q (a4 q hq)
          · exact absurd (hgg.1 n1) n2
        · rcases mergedQSets_eq hr'.made hlt' hM' with ⟨n2, -, -⟩ | ⟨n2, rfl⟩
          · exact absurd (hgg.2 n2) n1
          · refine ⟨_, a3.map _, ?_⟩
            rw [List.map_map, List.forall₂_map_left_iff, List.forall₂_map_right_iff, List.forall₂_same]
            intro q hq
            refine ⟨mergeQ_rename hb.apply hb.inj q (a4 q hq), fun x hx => ?_⟩
            obtain ⟨y, hy, e⟩ := mentions_mergeQ _ q x hx
            exact ⟨y, a4 q hq y hy, e⟩
      obtain ⟨K, k1, k2⟩ := key
      obtain ⟨js, rfl, c1⟩ := hs hg
      obtain ⟨js', rfl, c2⟩ := hs' (hm.disjoint hg)
      rw [if_pos hp] at c1
      rw [if_pos (show ({ opts with nodes := nodes' } : Options).pretty = true from hp)] at c2
      obtain ⟨ps, rfl, d1⟩ := forall₂_showsJson c1
      obtain ⟨ps', rfl, d2⟩ := forall₂_showsJson c2
      obtain ⟨l, m1, m2⟩ := List.perm_comp_forall₂ k1.symm d2
      have hsame : List.Forall₂ SameQSet ps l := by
        refine List.forall₂_iff_get.2 ⟨d1.length_eq.symm.trans (k2.length_eq.trans m1.length_eq),
          fun i a b => ?_⟩
        have c : i < M.length := d1.length_eq ▸ a
        have c' : i < K.length := k2.length_eq ▸ c
        obtain ⟨t1, t2⟩ := (List.forall₂_iff_get.1 k2).2 i c c'
        refine showsQSet_same (shownAs_unique gs' _) _ _ t1 (fun x hx nm hnm' => ?_)
          ((List.forall₂_iff_get.1 d1).2 i c a) ((List.forall₂_iff_get.1 m1).2 i c' b)
        obtain ⟨y, hy, rfl⟩ := t2 x hx
        exact (hb.shown y hy nm).1 hnm'
      obtain ⟨l₂, z1, z2⟩ := List.perm_comp_forall₂ m2.symm hsame.flip
      exact ⟨ps, ps', l₂, rfl, rfl, z2.symm, z1.flip⟩
    | _ => simp at hnm
  | _ => simp at hnm₀

end

/-! ## Concrete cases -/

/-- Nodes with the quorum set "two of a, x, b, b", in the given order. -/
def rawRepeat (l : List String) : RawFbas := l.map fun i => ⟨i, ⟨2, ["a", "x", "b", "b"], []⟩, none, none⟩

theorem rawRepeat_describes (l : List String) : DescribesFbas (rawRepeat l).toJson (rawRepeat l) := by
  refine describesFbas_toJson fun n hn => ?_
  obtain ⟨i, -, rfl⟩ := List.mem_map.1 hn
  exact .intro (by norm_num) (by simp)

/-- C85: The largest minimal blocking set reported depends on the order of nodes in the input if a quorum set
lists a node twice and this node is a quorum. -/
theorem C85_counterexample :
    SameNetwork (rawRepeat ["a", "x", "b"]) (rawRepeat ["a", "b", "x"]) ∧
    DistinctKeys (rawRepeat ["a", "x", "b"]) ∧ ∃ d d',
      Bulk.analyze (Ref.refEnv 3) id (fun _ => "h") [] (rawRepeat ["a", "x", "b"]).toJson none = .ok d ∧
      Bulk.analyze (Ref.refEnv 3) id (fun _ => "h") [] (rawRepeat ["a", "b", "x"]).toJson none = .ok d' ∧
      d.mbsMax = 3 ∧ d'.mbsMax = 2 := by
  refine ⟨⟨rawRepeat ["a", "b", "x"], List.Perm.map _ (by decide), ?_⟩, by unfold DistinctKeys; decide +kernel,
    { label := [], hasQuorumIntersection := false, topTierSize := 3
      mbsMin := 2, mbsMax := 3, mbsMean := 5 / 2, mssMin := 0, mssMax := 0, mssMean := 0
      mqMin := 1, mqMax := 2, mqMean := 3 / 2, standardFormHash := "h" },
    { label := [], hasQuorumIntersection := false, topTierSize := 3
      mbsMin := 2, mbsMax := 2, mbsMean := 2, mssMin := 0, mssMax := 0, mssMean := 0
      mqMin := 1, mqMax := 2, mqMean := 3 / 2, standardFormHash := "h" },
    Ref.ok_of (by decide +kernel), Ref.ok_of (by decide +kernel), rfl, rfl⟩
  exact List.forall₂_same.2 fun _ _ => ⟨rfl, .refl _, rfl, rfl⟩

/-- The nodes of `nodesBulk` in the opposite order, with reversed lists of validators. -/
def nodesBulkBack : Json := .arr ((List.range 4).map fun i => .obj ([
  ("publicKey", .str s!"n{3 - i}"),
  ("quorumSet", .obj [("threshold", .nat 3),
    ("validators", .arr [.str "n3", .str "n2", .str "n1", .str "n0"]), ("innerQuorumSets", .arr [])])] ++
  if i < 2 then [("isp", .str "I")] else []))

theorem nodesBulkBack_isSome : (RawFbas.fromJson nodesBulkBack).isSome = true := by decide +kernel

/-- The FBASs described by `nodesBulk` and `nodesBulkBack`. -/
def rawBulk : RawFbas := (RawFbas.fromJson nodesBulk).get nodesBulk_isSome
def rawBulkBack : RawFbas := (RawFbas.fromJson nodesBulkBack).get nodesBulkBack_isSome

theorem rawBulk_same : SameNetwork rawBulk rawBulkBack := by
  have hp : (["n0", "n1", "n2", "n3"] : List String).Perm ["n3", "n2", "n1", "n0"] := by decide +kernel
  refine ⟨rawBulk.reverse, (List.reverse_perm _).symm, ?_⟩
  exact .cons ⟨rfl, .validators 3 [] hp, rfl, rfl⟩ (.cons ⟨rfl, .validators 3 [] hp, rfl, rfl⟩
    (.cons ⟨rfl, .validators 3 [] hp, rfl, rfl⟩ (.cons ⟨rfl, .validators 3 [] hp, rfl, rfl⟩ .nil)))

theorem rawBulk_dupFree : ∀ x q, HasQSet (Fbas.fromRaw rawBulk) x q → DupFree q := by
  rintro x q ⟨n, hn, rfl⟩
  have h : ∀ n ∈ (Fbas.fromRaw rawBulk).nodes, n.quorumSet.containsDuplicates = false := by decide +kernel
  exact Ref.dupFree_of (h n (List.mem_of_getElem? hn))

/-- Concrete case of `C85_data_point_partial`. -/
example (env : Env) : Bulk.analyze env id (fun _ => "h") "x".toList nodesBulkBack (some orgsFour) =
    .ok pointBulk :=
  C85_data_point_partial (by unfold DistinctKeys; decide +kernel) rawBulk_same
    (.inl rawBulk_dupFree)
    (fun l => .refl l) (fun l => .refl l) (fbas_fromJson_iff.1 (Option.some_get nodesBulk_isSome).symm)
    (fbas_fromJson_iff.1 (Option.some_get nodesBulkBack_isSome).symm) analyze_bulk

/-- Concrete case of `C85_other_columns`: for the inputs of `C85_counterexample`, which do not meet the
conditions of `C85_data_point_partial`. -/
example (env env' : Env) (d : DataPoint)
    (h : Bulk.analyze env id (fun _ => "h") [] (rawRepeat ["a", "x", "b"]).toJson none = .ok d) :
    ∃ d', Bulk.analyze env' id (fun _ => "h") [] (rawRepeat ["a", "b", "x"]).toJson none = .ok d' ∧
      d'.mqMax = d.mqMax := by
  obtain ⟨d', h1, -, -, -, h2⟩ := C85_other_columns (env' := env') C85_counterexample.2.1
    C85_counterexample.1 (order' := id) (fun l => .refl l) (fun l => .refl l)
    (rawRepeat_describes _) (rawRepeat_describes _) h
  refine ⟨d', h1, ?_⟩
  have := congrArg (fun s => s.2.1) (h2 .nodes).2.1
  exact Option.some.inj this
/-- C85, for the tool: `fbas_analyzer -q -b -p` lists other minimal blocking sets. -/
theorem C85_tool_counterexample :
    (Tool.main (Ref.refEnv 3) id { plain (rawRepeat ["a", "x", "b"]).toJson with
      minimalQuorums := true, minimalBlockingSets := true, pretty := true, dontCheck := true }).map results = .ok [
        ("nodes_total", .nat 3),
        ("symmetric_clusters", .arr [.obj [("threshold", .nat 2),
          ("validators", .arr [.str "a", .str "x", .str "b", .str "b"])]]),
        ("minimal_quorums", nameSets [["b"], ["a", "x"]]),
        ("minimal_blocking_sets", nameSets [["a", "b"], ["x", "b"], ["a", "x", "b"], ["a", "x", "b"]]),
        ("top_tier", .arr [.str "a", .str "x", .str "b"])] ∧
    (Tool.main (Ref.refEnv 3) id { plain (rawRepeat ["a", "b", "x"]).toJson with
      minimalQuorums := true, minimalBlockingSets := true, pretty := true, dontCheck := true }).map results = .ok [
        ("nodes_total", .nat 3),
        ("symmetric_clusters", .arr [.obj [("threshold", .nat 2),
          ("validators", .arr [.str "a", .str "b", .str "b", .str "x"])]]),
        ("minimal_quorums", nameSets [["b"], ["a", "x"]]),
        ("minimal_blocking_sets", nameSets [["a", "b"]]),
        ("top_tier", .arr [.str "a", .str "b", .str "x"])] :=
  ⟨Ref.results_of (by decide +kernel), Ref.results_of (by decide +kernel)⟩

/-- Concrete case of `C85_tool_partial`: whatever is printed for `nodesBulkBack`, merged by ISPs, says the
same as these results for `nodesBulk`. -/
example (env : Env) : ∃ lines',
    Tool.main env id { plain nodesBulkBack with all := true, pretty := true, ispMerge := true } = .ok lines' ∧
    ∀ j', ("minimal_blocking_sets", j') ∈ results lines' →
      SameSetsOfNames (nameSets [["I"], ["n0", "n1"]]) j' := by
  have h : (Tool.main (Ref.refEnv 4) id { plain nodesBulk with all := true, pretty := true, ispMerge := true }).map
      results = .ok [
        ("nodes_total", .nat 4), ("nodes_total_merged", .nat 3),
        ("symmetric_clusters", .arr [.obj [("threshold", .nat 3),
          ("validators", .arr [.str "n0", .str "n1", .str "I", .str "I"])]]),
        ("minimal_quorums", nameSets [["n0", "I"], ["n1", "I"]]),
        ("has_quorum_intersection", .bool true),
        ("minimal_blocking_sets", nameSets [["I"], ["n0", "n1"]]),
        ("minimal_splitting_sets", nameSets [["I"], ["n0", "n1"]]),
        ("top_tier", .arr [.str "n0", .str "n1", .str "I"])] := Ref.results_of (by decide +kernel)
  cases hm : Tool.main (Ref.refEnv 4) id
      { plain nodesBulk with all := true, pretty := true, ispMerge := true } with
  | error e => rw [hm] at h; cases h
  | ok lines =>
    rw [hm] at h
    have h := Except.ok.inj h
    obtain ⟨lines', h1, -, h2⟩ := C85_tool_partial (env' := env) (order' := id)
      (opts := { plain nodesBulk with all := true, pretty := true, ispMerge := true })
      (by unfold DistinctKeys; decide +kernel) rawBulk_same (.inl rawBulk_dupFree)
      (fun l => .refl l) (fun l => .refl l) (fbas_fromJson_iff.1 (Option.some_get nodesBulk_isSome).symm)
      (fbas_fromJson_iff.1 (Option.some_get nodesBulkBack_isSome).symm) hm
    refine ⟨lines', h1, fun j' hj' => ?_⟩
    exact (h2 _ _ j' (by rw [h]; simp) hj').2.1 (by simp) rfl

/-- Concrete case of `C85_other_results`: the options of `C85_tool_counterexample`. -/
example : ¬ BlockingSetsFirst { plain (rawRepeat ["a", "x", "b"]).toJson with
    minimalQuorums := true, minimalBlockingSets := true, pretty := true, dontCheck := true } :=
  fun h => h.2 (.inl (.inr rfl))

/-- Concrete case of `C85_clusters`: the symmetric cluster of `nodesBulkBack`, merged by ISPs, is shown as that of
`nodesBulk`, in some order. -/
example (env : Env) (lines' : List Line) (j' : Json)
    (h : Tool.main env id { plain nodesBulkBack with pretty := true, ispMerge := true } = .ok lines')
    (hj' : ("symmetric_clusters", j') ∈ results lines') :
    SameQSetsOfNames (.arr [.obj [("threshold", .nat 3),
      ("validators", .arr [.str "n0", .str "n1", .str "I", .str "I"])]]) j' := by
  have hm : (Tool.main (Ref.refEnv 4) id { plain nodesBulk with pretty := true, ispMerge := true }).map
      results = .ok [
        ("nodes_total", .nat 4), ("nodes_total_merged", .nat 3),
        ("symmetric_clusters", .arr [.obj [("threshold", .nat 3),
          ("validators", .arr [.str "n0", .str "n1", .str "I", .str "I"])]]),
        ("has_quorum_intersection", .bool true)] := Ref.results_of (by decide +kernel)
  cases hl : Tool.main (Ref.refEnv 4) id { plain nodesBulk with pretty := true, ispMerge := true } with
  | error e => rw [hl] at hm; cases hm
  | ok lines =>
    rw [hl] at hm
    obtain ⟨f, g, gs, hr⟩ := exists_run hl
    have hj : DescribesFbas nodesBulk rawBulk := fbas_fromJson_iff.1 (Option.some_get nodesBulk_isSome).symm
    have hk : DistinctKeys rawBulk := by unfold DistinctKeys; decide +kernel
    obtain ⟨rfl, -, -, hd⟩ := C65_groups (fun l => .refl l) hr rawBulk hj hk
    refine C85_clusters (opts := { plain nodesBulk with pretty := true, ispMerge := true }) hk rawBulk_same
      (fun l => .refl l) (order' := id) (fun l => .refl l) hj
      (fbas_fromJson_iff.1 (Option.some_get nodesBulkBack_isSome).symm) rfl hr
      (hd _ (.inr ⟨⟨rfl, rfl, rfl⟩, rfl⟩)).1 h ?_ hj'
    rw [Except.ok.inj hm]
    simp

#print axioms C85_data_point_partial
#print axioms C85_other_columns
#print axioms C85_tool_partial
#print axioms C85_other_results
#print axioms C85_clusters
#print axioms C85_counterexample
#print axioms C85_tool_counterexample

end FA.Props
