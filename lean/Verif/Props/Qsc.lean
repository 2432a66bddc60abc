import Verif.Lemmas.Qsc
import Verif.Lemmas.Graph

import Verif.Props.Simulation

/-!
# C45, C46, C60, C61: quorum set configurators
-/

namespace FA.Props
open FA Spec Simulator

/-! ## C45 -/

/-- C45: if `RandomQsc::configure` is called for a node with fewer validators than desired (distinct and
in range) and does not panic, then validators are added so that they are distinct, in range, include
all earlier ones (or the node itself, if there were none) and number `min(desired, n)`. The threshold
is the desired one or the 67% threshold of this number. Nothing else changes. -/
theorem C45_random_partial (R : Rand) (desired : ℕ) (desiredThreshold : Option ℕ) (weights : List ℕ)
    (f f' : Fbas) (s s' : R.State) (c : ChangeEffect) (x : NodeId) (q : QuorumSet)
    (hx : HasQSet f x q) (hnd : q.validators.Nodup)
    (hrange : ∀ v ∈ q.validators, v < f.nodes.length)
    (hdes : q.validators.length < desired) (hdes2 : 2 ≤ desired)
    (h : Qsc.random R desired desiredThreshold weights x (f, s) = .ok (c, f', s')) :
    c = .change ∧
      ∃ vs : List NodeId,
        HasQSet f' x
          ⟨desiredThreshold.getD (Qsc.calculate67pThreshold (min desired f.nodes.length)),
            vs, q.inner⟩ ∧
        vs.Nodup ∧ (∀ v ∈ vs, v < f.nodes.length) ∧
        (∀ v ∈ q.validators, v ∈ vs) ∧ (q.validators = [] → x ∈ vs) ∧
        vs.length = min desired f.nodes.length ∧
        (∀ v ∈ vs, v ∈ q.validators ∨ v = x ∨ 0 < weights.getD v 1) ∧
        (∀ y q', y ≠ x → (HasQSet f' y q' ↔ HasQSet f y q')) ∧
        f'.nodes.map Node.publicKey = f.nodes.map Node.publicKey ∧ f'.pkToId = f.pkToId := by
  have hxn : x < f.nodes.length := by
    obtain ⟨node, hn, -⟩ := hx
    exact (List.getElem?_eq_some_iff.1 hn).1
  unfold Qsc.random at h
  dsimp only at h
  have hex : Qsc.existing f x = .ok q := by
    obtain ⟨q', h1, h2⟩ := existing_ok hxn
    have := getQuorumSet_iff.2 hx
    rw [h2] at this
    rw [h1, Option.some.inj this]
  rw [hex] at h
  dsimp only at h
  -- the validators before anything is added
  generalize hv0 : (if q.validators = [] then [x] else q.validators) = vs0 at h
  have hv0nd : vs0.Nodup := by rw [← hv0]; split <;> simp [hnd]
  have hv0r : ∀ v ∈ vs0, v < f.nodes.length := by
    rw [← hv0]; split
    · simpa using hxn
    · exact hrange
  have hv0len : vs0.length < desired := by
    rw [← hv0]; split
    · exact hdes2
    · exact hdes
  have hv0n : vs0.length ≤ f.nodes.length := by
    have := (List.subperm_of_subset hv0nd (fun v hv => List.mem_range.2 (hv0r v hv))).length_le
    simpa using this
  rw [if_pos hv0len] at h
  cases hr : Qsc.randomLoop R weights (min desired f.nodes.length - vs0.length)
      ((rangeFT 0 f.nodes.length).filter (fun x => decide (x ∉ vs0))) vs0 s with
  | error e => rw [hr] at h; cases h
  | ok p =>
    obtain ⟨vs, s1⟩ := p
    rw [hr] at h
    dsimp only at h
    obtain ⟨new, h1, h2, h3, h4⟩ := randomLoop_ok ((nodup_rangeFT _ _).filter _) hr
    obtain ⟨f1, g1, g2, g3⟩ := swap_spec hxn
      { q with threshold := desiredThreshold.getD
                 (Qsc.calculate67pThreshold (min desired f.nodes.length)), validators := vs }
    rw [g1] at h
    obtain ⟨rfl, h6⟩ := Prod.mk.inj (Except.ok.inj h)
    obtain ⟨rfl, rfl⟩ := Prod.mk.inj h6
    refine ⟨rfl, vs, ?_, ?_, ?_, ?_, ?_, ?_, ?_, ?_, g2.1, g2.2⟩
    · rw [← getQuorumSet_iff, g3, if_pos rfl]
    · rw [h1, List.nodup_append']
      refine ⟨hv0nd, h2, fun v hv hv' => ?_⟩
      have := (h4 v hv').1
      simp only [List.mem_filter, decide_eq_true_eq] at this
      exact this.2 hv
    · intro v hv
      rw [h1] at hv
      rcases List.mem_append.1 hv with hv | hv
      · exact hv0r v hv
      · exact (mem_rangeFT.1 (List.mem_filter.1 (h4 v hv).1).1).2
    · intro v hv
      rw [h1]
      apply List.mem_append_left
      rw [← hv0, if_neg (List.ne_nil_of_mem hv)]; exact hv
    · intro he
      rw [h1]
      apply List.mem_append_left
      rw [← hv0, if_pos he]; exact List.mem_singleton_self x
    · rw [h1, List.length_append, h3]
      have : vs0.length ≤ min desired f.nodes.length := by
        rw [Nat.le_min]; exact ⟨Nat.le_of_lt hv0len, hv0n⟩
      omega
    · intro v hv
      rw [h1] at hv
      rcases List.mem_append.1 hv with hv | hv
      · rw [← hv0] at hv
        split at hv
        · exact .inr (.inl (by simpa using hv))
        · exact .inl hv
      · exact .inr (.inr (h4 v hv).2)
    · intro y q' hy
      rw [← getQuorumSet_iff, ← getQuorumSet_iff, g3, if_neg hy]

/-- C45: for an existing node without validators, `RandomQsc::configure` panics iff more nodes are
needed than there are other nodes with positive weight (in particular never without weights). -/
theorem C45_panics_iff (R : Rand) (desired : ℕ) (desiredThreshold : Option ℕ) (weights : List ℕ)
    (f : Fbas) (s : R.State) (x : NodeId) (q : QuorumSet) (hx : HasQSet f x q)
    (hv : q.validators = []) (hdes : 2 ≤ desired) :
    (∃ e, Qsc.random R desired desiredThreshold weights x (f, s) = .error e) ↔
      ((Finset.range f.nodes.length).filter
        (fun y => y ≠ x ∧ 0 < weights.getD y 1)).card + 1 < min desired f.nodes.length := by
  have hxn : x < f.nodes.length := by
    obtain ⟨node, hn, -⟩ := hx
    exact (List.getElem?_eq_some_iff.1 hn).1
  have hex : Qsc.existing f x = .ok q := by
    obtain ⟨q', h1, h2⟩ := existing_ok hxn
    have := getQuorumSet_iff.2 hx
    rw [h2] at this
    rw [h1, Option.some.inj this]
  unfold Qsc.random
  dsimp only
  rw [hex]
  dsimp only
  rw [if_pos hv, if_pos (by rw [List.length_singleton]; omega), List.length_singleton]
  have hloop := randomLoop_error (R := R) (weights := weights)
    (k := min desired f.nodes.length - 1)
    (available := (rangeFT 0 f.nodes.length).filter (fun y => decide (y ∉ [x]))) (vs := [x])
    (s := s) ((nodup_rangeFT _ _).filter _)
  have hcard : (((rangeFT 0 f.nodes.length).filter (fun y => decide (y ∉ [x]))).filter
        (fun y => decide (0 < weights.getD y 1))).length =
      ((Finset.range f.nodes.length).filter (fun y => y ≠ x ∧ 0 < weights.getD y 1)).card := by
    rw [← List.toFinset_card_of_nodup (((nodup_rangeFT _ _).filter _).filter _)]
    congr 1
    ext y
    simp
    exact fun _ => and_comm
  rw [hcard] at hloop
  cases hr : Qsc.randomLoop R weights (min desired f.nodes.length - 1)
      ((rangeFT 0 f.nodes.length).filter (fun y => decide (y ∉ [x]))) [x] s with
  | error e =>
    dsimp only
    have := hloop.1 ⟨e, hr⟩
    exact ⟨fun _ => by omega, fun _ => ⟨e, rfl⟩⟩
  | ok p =>
    obtain ⟨vs, s1⟩ := p
    dsimp only
    obtain ⟨f1, g1, -⟩ := swap_spec hxn
      { q with threshold := desiredThreshold.getD
                 (Qsc.calculate67pThreshold (min desired f.nodes.length)), validators := vs }
    rw [g1]
    constructor
    · rintro ⟨e, h⟩; cases h
    · intro h
      obtain ⟨e, he⟩ := hloop.2 (by omega)
      rw [hr] at he; cases he

/-- C45 fails for a desired size of 1: the node gets itself as only validator, but the threshold stays
0 instead of becoming 1 (so that the quorum set cannot be satisfied), and the reported effect is
`NoChange`. -/
theorem C45_counterexample :
    (Qsc.random lazyRand 1 none [] 0 (Ref.mkFbas [QuorumSet.empty, QuorumSet.empty], ())).map
      (fun r => (r.1, r.2.1.nodes.map Node.quorumSet)) =
        .ok (.noChange, [⟨0, [0], []⟩, ⟨0, [], []⟩]) ∧
    Qsc.calculate67pThreshold (min 1 2) = 1 :=
  ⟨Ref.ok_of (by decide +kernel), by decide⟩

/-- Concrete case: node 1 of 4 nodes wants 3 validators; node 3 has weight 0. -/
example : (Qsc.random busyRand 3 none [1, 1, 1, 0] 1
      (Ref.mkFbas [QuorumSet.empty, QuorumSet.empty, QuorumSet.empty, QuorumSet.empty], (0 : ℕ))).map
        (fun r => (r.1, (r.2.1.nodes.map Node.quorumSet)[1]?)) =
    .ok (.change, some ⟨3, [1, 2, 0], []⟩) := Ref.ok_of (by decide +kernel)

/-- With too few nodes of positive weight it panics. -/
example : (Qsc.random busyRand 3 none [0, 1, 1, 0] 1
      (Ref.mkFbas [QuorumSet.empty, QuorumSet.empty, QuorumSet.empty, QuorumSet.empty], (0 : ℕ))).map
        (fun r => r.1) = .error .unwrapNone := Ref.error_of (by decide +kernel)

#print axioms C45_random_partial
#print axioms C45_panics_iff
#print axioms C45_counterexample

/-! ## C46 -/

theorem existing_eq {f : Fbas} {x : NodeId} {q : QuorumSet} (hx : HasQSet f x q) :
    x < f.nodes.length ∧ Qsc.existing f x = .ok q := by
  have hxn : x < f.nodes.length := by
    obtain ⟨node, hn, -⟩ := hx
    exact (List.getElem?_eq_some_iff.1 hn).1
  refine ⟨hxn, ?_⟩
  obtain ⟨q', h1, h2⟩ := existing_ok hxn
  have := getQuorumSet_iff.2 hx
  rw [h2] at this
  rw [h1, Option.some.inj this]

/-- C46: for a node with links (in or out) and an empty quorum set, `AllNeighborsQsc` sets a quorum set
without inner quorum sets whose validators are sorted and are exactly the node itself and the nodes it
links to (none of them twice, if the graph lists no link twice). The threshold is the 67% threshold (or
the relative one). Nothing else changes. -/
theorem C46_configure (R : Rand) (g : Graph) (rel : Option ℚ) (f : Fbas) (s : R.State) (x : NodeId)
    (hx : HasQSet f x QuorumSet.empty) (hxg : x < g.outlinks.length)
    (hcon : (∃ j, Link g x j) ∨ ∃ i, Link g i x) :
    ∃ f' vs, Qsc.allNeighbors R g rel x (f, s) = .ok (.change, f', s) ∧
      HasQSet f' x ⟨Qsc.calculateThreshold vs.length rel, vs, []⟩ ∧
      vs.Pairwise (· ≤ ·) ∧ (∀ y, y ∈ vs ↔ y = x ∨ Link g x y) ∧
      ((∀ l, g.outlinks[x]? = some l → l.Nodup) → vs.Nodup) ∧
      (∀ y q', y ≠ x → (HasQSet f' y q' ↔ HasQSet f y q')) ∧
      f'.nodes.map Node.publicKey = f.nodes.map Node.publicKey ∧ f'.pkToId = f.pkToId := by
  obtain ⟨hxn, hex⟩ := existing_eq hx
  have hl : g.outlinks[x]? = some g.outlinks[x] := List.getElem?_eq_getElem hxg
  generalize g.outlinks[x] = l at hl
  set vs := sortIds (if x ∈ l then l else l ++ [x]) with hvs
  obtain ⟨f', g1, g2, g3⟩ := swap_spec hxn
    { QuorumSet.empty with threshold := Qsc.calculateThreshold vs.length rel,
                           validators := QuorumSet.empty.validators ++ vs }
  refine ⟨f', vs, ?_, ?_, ?_, ?_, ?_, ?_, g2.1, g2.2⟩
  · unfold Qsc.allNeighbors
    dsimp only
    rw [hex]
    dsimp only
    rw [if_pos ⟨mem_getConnectedNodes.2 hcon, rfl⟩, hl]
    dsimp only
    rw [← hvs, g1]
  · rw [← getQuorumSet_iff, g3, if_pos rfl]
    cases rel <;> rfl
  · exact List.pairwise_insertionSort _ _
  · intro y
    have hlink : Link g x y ↔ y ∈ l := by
      unfold Link
      rw [hl]
      exact ⟨fun ⟨l', h, hy⟩ => by rwa [Option.some.inj h], fun h => ⟨l, rfl, h⟩⟩
    rw [hvs, mem_sortIds, hlink]
    split
    · rename_i hxl
      exact ⟨.inr, fun h => h.elim (fun h => h ▸ hxl) id⟩
    · rw [List.mem_append, List.mem_singleton, or_comm]
  · intro hnd
    have hlnd := hnd l hl
    rw [hvs]
    unfold sortIds
    rw [(List.perm_insertionSort _ _).nodup_iff]
    split
    · exact hlnd
    · rename_i hxl
      rw [List.nodup_append']
      exact ⟨hlnd, by simp, fun a ha ha' => hxl (by rw [List.mem_singleton.1 ha'] at ha; exact ha)⟩
  · intro y q' hy
    rw [← getQuorumSet_iff, ← getQuorumSet_iff, g3, if_neg hy]

/-- C46: `AllNeighborsQsc` changes nothing for nodes without any links and for nodes whose quorum set is
not empty - in particular after it has set the quorum set of a node. -/
theorem C46_no_change (R : Rand) (g : Graph) (rel : Option ℚ) (f : Fbas) (s : R.State) (x : NodeId)
    (q : QuorumSet) (hx : HasQSet f x q)
    (h : q ≠ QuorumSet.empty ∨ ¬ ((∃ j, Link g x j) ∨ ∃ i, Link g i x)) :
    Qsc.allNeighbors R g rel x (f, s) = .ok (.noChange, f, s) := by
  obtain ⟨hxn, hex⟩ := existing_eq hx
  unfold Qsc.allNeighbors
  dsimp only
  rw [hex]
  dsimp only
  rw [if_neg]
  rw [mem_getConnectedNodes]
  rintro ⟨h1, h2⟩
  rcases h with h | h
  · exact h h2
  · exact h h1

/-- C46: a second call after the first one changes nothing. -/
theorem C46_idempotent (R : Rand) (g : Graph) (rel : Option ℚ) (f f' : Fbas) (s s' : R.State)
    (c : ChangeEffect) (x : NodeId) (hx : HasQSet f x QuorumSet.empty)
    (hxg : x < g.outlinks.length)
    (h : Qsc.allNeighbors R g rel x (f, s) = .ok (c, f', s')) (s'' : R.State) :
    Qsc.allNeighbors R g rel x (f', s'') = .ok (.noChange, f', s'') := by
  by_cases hcon : (∃ j, Link g x j) ∨ ∃ i, Link g i x
  · obtain ⟨f1, vs, h1, h2, -, h4, -⟩ := C46_configure R g rel f s x hx hxg hcon
    rw [h1] at h
    obtain ⟨-, h6⟩ := Prod.mk.inj (Except.ok.inj h)
    obtain ⟨rfl, -⟩ := Prod.mk.inj h6
    refine C46_no_change R g rel f1 s'' x _ h2 (.inl fun he => ?_)
    have hv : vs = [] := congrArg QuorumSet.validators he
    have := (h4 x).2 (.inl rfl)
    rw [hv] at this
    cases this
  · rw [C46_no_change R g rel f s x _ hx (.inr hcon)] at h
    obtain ⟨-, h6⟩ := Prod.mk.inj (Except.ok.inj h)
    obtain ⟨rfl, -⟩ := Prod.mk.inj h6
    exact C46_no_change R g rel f s'' x _ hx (.inr hcon)

/-- Concrete case: node 2 links to nodes 3 and 0. -/
example : (Qsc.allNeighbors lazyRand ⟨[[], [], [3, 0], []]⟩ none 2
      (Ref.mkFbas [QuorumSet.empty, QuorumSet.empty, QuorumSet.empty], ())).map
        (fun r => (r.1, r.2.1.nodes.map Node.quorumSet)) =
    .ok (.change, [QuorumSet.empty, QuorumSet.empty, ⟨3, [0, 2, 3], []⟩]) :=
  Ref.ok_of (by decide +kernel)

#print axioms C46_configure
#print axioms C46_no_change
#print axioms C46_idempotent

end FA.Props
