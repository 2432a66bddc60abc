import Verif.Props.GraphQsc

/-!
# C66 (positive scores), C68: `HigherTierNeighborsQsc`
-/

namespace FA.Props
open FA Spec Simulator

/-- C66: in an undirected graph, a node has a positive score iff it has links. -/
theorem C66_positive (g : Graph) (hu : Undirected g) (sc : List ℚ) (h : g.getRankScores id = .ok sc)
    (j : NodeId) (x : ℚ) (hx : sc[j]? = some x) : 0 < x ↔ ∃ i, Link g j i := by
  have hg : LinksInRange g := by
    by_contra hg
    obtain ⟨e, he⟩ := (C66_panics_iff id g).1.2 hg
    rw [he] at h; cases h
  obtain ⟨sc', k, h1, h2, h3, hk, -⟩ := C66_scores g hg
  rw [h1] at h
  obtain rfl := Except.ok.inj h
  have hj : j < g.outlinks.length := by
    obtain ⟨hj, -⟩ := List.getElem?_eq_some_iff.1 hx
    rwa [h2] at hj
  rw [h3 j hj] at hx
  obtain rfl := Option.some.inj hx
  have hnn : ∀ k j i, 0 ≤ (linkCount g i j : ℚ) * (ranks g k i / outDegree g i) := by
    intro k j i
    have := ranks_nonneg g k i
    positivity
  have key : ∀ k j, (∃ i, Link g j i) → 0 < ranks g k j := by
    intro k
    induction k with
    | zero =>
      rintro j ⟨i, hji⟩
      have : 0 < g.outlinks.length := Nat.lt_of_le_of_lt (Nat.zero_le _) hji.lt
      show (0 : ℚ) < 1 / g.outlinks.length
      positivity
    | succ k ih =>
      rintro j ⟨i, hji⟩
      have hij := hu j i hji
      show 0 < rankStep g (ranks g k) j
      unfold rankStep
      refine Finset.sum_pos' (fun i _ => hnn k j i) ⟨i, Finset.mem_range.2 hij.lt, ?_⟩
      have hp := ih i ⟨j, hij⟩
      have hm := link_iff.1 hij
      have h1 : 0 < linkCount g i j := List.count_pos_iff.2 hm
      have h2 : 0 < outDegree g i := List.length_pos_of_mem hm
      positivity
  constructor
  · intro hpos
    obtain ⟨k, rfl⟩ : ∃ k', k = k' + 1 := ⟨k - 1, by omega⟩
    by_contra hno
    refine absurd hpos (not_lt.2 (le_of_eq ?_))
    show rankStep g (ranks g k) j = 0
    unfold rankStep
    refine Finset.sum_eq_zero fun i _ => ?_
    have : linkCount g i j = 0 := by
      refine List.count_eq_zero.2 fun hm => hno ⟨i, hu i j (link_iff.2 hm)⟩
    rw [this]; simp
  · exact key k j

#print axioms C66_positive

/-! ## C68 -/

/-- The score of a node. -/
abbrev scoreOf (sc : List ℚ) (x : NodeId) : ℚ := sc.getD x 0

/-- C68: the neighbours of `x` are split into those with at least twice the score of `x`, those with
at most half of it (unless both hold), and the rest. It never panics if there is a score for every
node. -/
theorem C68_tierness (g : Graph) (hg : LinksInRange g) (sc : List ℚ)
    (hsc : sc.length = g.outlinks.length) (x : NodeId) (hx : x < g.outlinks.length) :
    ∃ hi sa lo, Qsc.neighborsByTierness g sc x = .ok (hi, sa, lo) ∧
      (∀ l, g.outlinks[x]? = some l → (hi ++ sa ++ lo).Perm l) ∧
      (∀ y, y ∈ hi ↔ Link g x y ∧ 2 * scoreOf sc x ≤ scoreOf sc y) ∧
      (∀ y, y ∈ lo ↔ Link g x y ∧ scoreOf sc y < 2 * scoreOf sc x ∧
        2 * scoreOf sc y ≤ scoreOf sc x) ∧
      (∀ y, y ∈ sa ↔ Link g x y ∧ scoreOf sc y < 2 * scoreOf sc x ∧
        scoreOf sc x < 2 * scoreOf sc y) := by
  have hl : g.outlinks[x]? = some (g.outlinks.getD x []) := by
    rw [List.getElem?_eq_getElem hx]; simp [hx]
  have hget : ∀ y < g.outlinks.length, getE sc y = .ok (scoreOf sc y) := by
    intro y hy
    rw [← hsc] at hy
    unfold getE scoreOf
    rw [List.getElem?_eq_getElem hy]; simp [hy]
  have hm : mapE (fun i => getE sc i) (g.outlinks.getD x []) =
      .ok ((g.outlinks.getD x []).map (scoreOf sc)) :=
    mapE_ok fun y hy => hget y (hg x y (link_iff.2 hy))
  refine ⟨(g.outlinks.getD x []).filter (fun i => decide (2 * scoreOf sc x ≤ scoreOf sc i)),
    ((g.outlinks.getD x []).filter (fun i => decide (¬ 2 * scoreOf sc x ≤ scoreOf sc i))).filter
      (fun i => decide (¬ 2 * scoreOf sc i ≤ scoreOf sc x)),
    ((g.outlinks.getD x []).filter (fun i => decide (¬ 2 * scoreOf sc x ≤ scoreOf sc i))).filter
      (fun i => decide (2 * scoreOf sc i ≤ scoreOf sc x)), ?_, ?_, ?_, ?_, ?_⟩
  · unfold Qsc.neighborsByTierness
    rw [hget x hx]
    dsimp only
    rw [hl]
    dsimp only
    rw [hm]
  · intro l hl'
    rw [hl] at hl'
    obtain rfl := Option.some.inj hl'
    have p1 : ∀ (p : NodeId → Bool) (l : List NodeId),
        (l.filter p ++ l.filter (fun y => !p y)).Perm l := fun p l => List.filter_append_perm p l
    have e : ∀ (l : List NodeId) (c : NodeId → Prop) [DecidablePred c],
        l.filter (fun i => decide (¬ c i)) = l.filter (fun i => !decide (c i)) := by
      intro l c _
      apply List.filter_congr; intro y _; simp
    rw [e, e, List.append_assoc]
    exact ((List.perm_append_comm.trans (p1 _ _)).append_left _).trans (p1 _ _)
  · intro y
    rw [List.mem_filter, link_iff, decide_eq_true_eq]
  · intro y
    rw [List.mem_filter, List.mem_filter, link_iff, decide_eq_true_eq, decide_eq_true_eq, not_le,
      and_assoc]
  · intro y
    rw [List.mem_filter, List.mem_filter, link_iff, decide_eq_true_eq, decide_eq_true_eq, not_le,
      not_le, and_assoc]

/-- C68: in an undirected graph with positive scores, `y` is a higher tier neighbour of `x` iff `x` is a
lower tier neighbour of `y`; and being a same tier neighbour is mutual. -/
theorem C68_mutual (g : Graph) (hg : LinksInRange g) (hu : Undirected g) (sc : List ℚ)
    (hsc : sc.length = g.outlinks.length) (x y : NodeId)
    (hpx : 0 < scoreOf sc x) (hpy : 0 < scoreOf sc y) (hi sa lo hi' sa' lo' : List NodeId)
    (h : Qsc.neighborsByTierness g sc x = .ok (hi, sa, lo))
    (h' : Qsc.neighborsByTierness g sc y = .ok (hi', sa', lo')) :
    (y ∈ hi ↔ x ∈ lo') ∧ (y ∈ sa ↔ x ∈ sa') := by
  have hlt : ∀ z, 0 < scoreOf sc z → z < g.outlinks.length := by
    intro z hz
    by_contra hc
    unfold scoreOf at hz
    rw [List.getD_eq_getElem?_getD, List.getElem?_eq_none (by rw [hsc]; exact Nat.le_of_not_lt hc)] at hz
    exact absurd hz (lt_irrefl _)
  obtain ⟨a, b, c, e1, -, e2, e3, e4⟩ := C68_tierness g hg sc hsc x (hlt x hpx)
  obtain ⟨a', b', c', e1', -, e2', e3', e4'⟩ := C68_tierness g hg sc hsc y (hlt y hpy)
  rw [e1] at h; rw [e1'] at h'
  simp only [Except.ok.injEq, Prod.mk.injEq] at h h'
  obtain ⟨rfl, rfl, rfl⟩ := h
  obtain ⟨rfl, rfl, rfl⟩ := h'
  rw [e2, e3', e4, e4']
  constructor
  · constructor
    · rintro ⟨h1, h2⟩; exact ⟨hu _ _ h1, by linarith, h2⟩
    · rintro ⟨h1, -, h2⟩; exact ⟨hu _ _ h1, h2⟩
  · constructor
    · rintro ⟨h1, h2, h3⟩; exact ⟨hu _ _ h1, h3, h2⟩
    · rintro ⟨h1, h2, h3⟩; exact ⟨hu _ _ h1, h3, h2⟩

theorem mem_symmetryCorrection {f : Fbas} {x y : NodeId} {vs : List NodeId} :
    y ∈ Qsc.symmetryCorrection f x vs ↔
      y ∈ vs ∨ ∃ z ∈ vs, ∃ q, HasQSet f z q ∧ Mentions q x ∧ Mentions q y := by
  unfold Qsc.symmetryCorrection
  have key : ∀ (vs : List NodeId) (acc : NodeSet),
      y ∈ vs.foldl (fun acc i =>
        let acc := insert i acc
        match f.nodes[i]? with
        | none => acc
        | some other =>
          let ov := other.quorumSet.containedNodes
          if x ∈ ov then acc ∪ ov else acc) acc ↔
      y ∈ acc ∨ y ∈ vs ∨ ∃ z ∈ vs, ∃ q, HasQSet f z q ∧ Mentions q x ∧ Mentions q y := by
    intro vs
    induction vs with
    | nil => intro acc; simp
    | cons v vs ih =>
      intro acc
      rw [List.foldl_cons, ih]
      have hv : y ∈ (match f.nodes[v]? with
          | none => insert v acc
          | some other =>
            if x ∈ other.quorumSet.containedNodes then
              insert v acc ∪ other.quorumSet.containedNodes else insert v acc) ↔
          y ∈ acc ∨ y = v ∨ ∃ q, HasQSet f v q ∧ Mentions q x ∧ Mentions q y := by
        cases hn : f.nodes[v]? with
        | none =>
          dsimp only
          rw [Finset.mem_insert]
          constructor
          · rintro (h | h)
            · exact .inr (.inl h)
            · exact .inl h
          · rintro (h | h | ⟨q, ⟨n, hn', -⟩, -⟩)
            · exact .inr h
            · exact .inl h
            · rw [hn] at hn'; cases hn'
        | some other =>
          have hq : ∀ q, HasQSet f v q ↔ q = other.quorumSet := by
            intro q
            constructor
            · rintro ⟨n, hn', rfl⟩
              rw [hn] at hn'
              rw [Option.some.inj hn']
            · rintro rfl; exact ⟨other, hn, rfl⟩
          dsimp only
          simp only [hq, exists_eq_left, QuorumSet.mem_containedNodes]
          split
          · rename_i h
            rw [Finset.mem_union, Finset.mem_insert, QuorumSet.mem_containedNodes]
            constructor
            · rintro ((h1 | h1) | h1)
              · exact .inr (.inl h1)
              · exact .inl h1
              · exact .inr (.inr ⟨QuorumSet.mem_containedNodes.1 h, h1⟩)
            · rintro (h1 | h1 | ⟨-, h1⟩)
              · exact .inl (.inr h1)
              · exact .inl (.inl h1)
              · exact .inr h1
          · rename_i h
            rw [Finset.mem_insert]
            constructor
            · rintro (h1 | h1)
              · exact .inr (.inl h1)
              · exact .inl h1
            · rintro (h1 | h1 | ⟨h1, -⟩)
              · exact .inr h1
              · exact .inl h1
              · exact absurd (QuorumSet.mem_containedNodes.2 h1) h
      refine (or_congr hv Iff.rfl).trans ?_
      simp only [List.mem_cons, exists_eq_or_imp]
      generalize (∃ q, HasQSet f v q ∧ Mentions q x ∧ Mentions q y) = A
      generalize (∃ z ∈ vs, ∃ q, HasQSet f z q ∧ Mentions q x ∧ Mentions q y) = B
      constructor
      · rintro ((h | h | h) | h | h)
        · exact .inl h
        · exact .inr (.inl (.inl h))
        · exact .inr (.inr (.inl h))
        · exact .inr (.inl (.inr h))
        · exact .inr (.inr (.inr h))
      · rintro (h | (h | h) | h | h)
        · exact .inl (.inl h)
        · exact .inl (.inr (.inl h))
        · exact .inr (.inl h)
        · exact .inl (.inr (.inr h))
        · exact .inr (.inr h)
  refine (key vs ∅).trans ?_
  constructor
  · rintro (h | h)
    · exact absurd h (Finset.notMem_empty _)
    · exact h
  · exact .inr

/-- The validators that `HigherTierNeighborsQsc` chooses for `x`. -/
def tierValidators (g : Graph) (sc : List ℚ) (f : Fbas) (sym : Bool) (x : NodeId) : List NodeId :=
  let l := g.outlinks.getD x []
  let hi := l.filter (fun i => decide (2 * scoreOf sc x ≤ scoreOf sc i))
  let other := l.filter (fun i => decide (¬ 2 * scoreOf sc x ≤ scoreOf sc i))
  let sa := other.filter (fun i => decide (¬ 2 * scoreOf sc i ≤ scoreOf sc x))
  let vs := if hi ≠ [] then hi else sa
  let vs := if sym = true then elems (Qsc.symmetryCorrection f x vs) else vs
  sortIds (if x ∈ vs then vs else vs ++ [x])

theorem higherTier_eq (R : Rand) {g : Graph} (hg : LinksInRange g) {sc : List ℚ}
    (hsc : sc.length = g.outlinks.length) (rel : Option ℚ) (sym : Bool) (f : Fbas) (s : R.State)
    {x : NodeId} (hx : x < g.outlinks.length) :
    Qsc.higherTierNeighbors R g sc rel sym x (f, s) =
      if x ∈ g.getConnectedNodes then
        Qsc.replaceIfDifferent R ⟨Qsc.calculateThreshold (tierValidators g sc f sym x).length rel,
          tierValidators g sc f sym x, []⟩ x (f, s)
      else .ok (.noChange, f, s) := by
  have hl : g.outlinks[x]? = some (g.outlinks.getD x []) := by
    rw [List.getElem?_eq_getElem hx]; simp [hx]
  have hget : ∀ y < g.outlinks.length, getE sc y = .ok (scoreOf sc y) := by
    intro y hy
    rw [← hsc] at hy
    unfold getE scoreOf
    rw [List.getElem?_eq_getElem hy]; simp [hy]
  have hm : mapE (fun i => getE sc i) (g.outlinks.getD x []) =
      .ok ((g.outlinks.getD x []).map (scoreOf sc)) :=
    mapE_ok fun y hy => hget y (hg x y (link_iff.2 hy))
  unfold Qsc.higherTierNeighbors
  dsimp only
  split
  · unfold Qsc.neighborsByTierness
    rw [hget x hx]
    dsimp only
    rw [hl]
    dsimp only
    rw [hm]
    rfl
  · rfl

theorem mem_tierValidators {g : Graph} {sc : List ℚ} {f : Fbas} {sym : Bool} {x y : NodeId} :
    y ∈ tierValidators g sc f sym x ↔ y = x ∨
      if sym = true then PreferredSym g (scoreOf sc) f x y else Preferred g (scoreOf sc) x y := by
  unfold tierValidators
  dsimp only
  set hi := (g.outlinks.getD x []).filter
    (fun i => decide (2 * scoreOf sc x ≤ scoreOf sc i)) with hhi
  have hmhi : ∀ z, z ∈ hi ↔ Link g x z ∧ 2 * scoreOf sc x ≤ scoreOf sc z := by
    intro z; rw [hhi, List.mem_filter, link_iff, decide_eq_true_eq]
  set sa := ((g.outlinks.getD x []).filter
    (fun i => decide (¬ 2 * scoreOf sc x ≤ scoreOf sc i))).filter
      (fun i => decide (¬ 2 * scoreOf sc i ≤ scoreOf sc x)) with hsa
  have hmsa : ∀ z, z ∈ sa ↔ Link g x z ∧ scoreOf sc z < 2 * scoreOf sc x ∧
      scoreOf sc x < 2 * scoreOf sc z := by
    intro z
    rw [hsa, List.mem_filter, List.mem_filter, link_iff, decide_eq_true_eq, decide_eq_true_eq, not_le,
      not_le, and_assoc]
  have hpref : ∀ z, z ∈ (if hi ≠ [] then hi else sa) ↔ Preferred g (scoreOf sc) x z := by
    intro z
    unfold Preferred
    split
    · rename_i hne
      rw [hmhi]
      constructor
      · rintro ⟨h1, h2⟩; exact ⟨h1, .inl h2⟩
      · rintro ⟨h1, h2 | ⟨h2, -⟩⟩
        · exact ⟨h1, h2⟩
        · obtain ⟨w, hw⟩ := List.exists_mem_of_ne_nil _ hne
          obtain ⟨h3, h4⟩ := (hmhi w).1 hw
          exact absurd (h2 w h3) (not_lt.2 h4)
    · rename_i hne
      have hnil : hi = [] := by simpa using hne
      have hno : ∀ w, Link g x w → scoreOf sc w < 2 * scoreOf sc x := by
        intro w hw
        by_contra hc
        have := (hmhi w).2 ⟨hw, not_lt.1 hc⟩
        rw [hnil] at this; cases this
      rw [hmsa]
      constructor
      · rintro ⟨h1, -, h3⟩; exact ⟨h1, .inr ⟨hno, h3⟩⟩
      · rintro ⟨h1, h2 | ⟨-, h3⟩⟩
        · exact absurd (hno z h1) (not_lt.2 h2)
        · exact ⟨h1, hno z h1, h3⟩
  set vs := (if hi ≠ [] then hi else sa) with hvs
  have hvs2 : y ∈ (if sym = true then elems (Qsc.symmetryCorrection f x vs) else vs) ↔
      if sym = true then PreferredSym g (scoreOf sc) f x y else Preferred g (scoreOf sc) x y := by
    cases sym
    · exact hpref y
    · show y ∈ elems _ ↔ PreferredSym _ _ _ _ _
      rw [mem_elems, mem_symmetryCorrection, hpref]
      unfold PreferredSym
      refine or_congr Iff.rfl ⟨?_, ?_⟩
      · rintro ⟨z, hz, q, h⟩; exact ⟨z, q, (hpref z).1 hz, h⟩
      · rintro ⟨z, q, hz, h⟩; exact ⟨z, (hpref z).2 hz, q, h⟩
  rw [mem_sortIds, ← hvs2]
  generalize (if sym = true then elems (Qsc.symmetryCorrection f x vs) else vs) = ws
  split
  · rename_i hxl
    exact ⟨.inr, fun h => h.elim (fun h => h ▸ hxl) id⟩
  · rw [List.mem_append, List.mem_singleton, or_comm]

theorem nodup_tierValidators {g : Graph} {sc : List ℚ} {f : Fbas} {sym : Bool} {x : NodeId}
    (h : sym = true ∨ (g.outlinks.getD x []).Nodup) : (tierValidators g sc f sym x).Nodup := by
  have aux : ∀ l : List NodeId, l.Nodup → (sortIds (if x ∈ l then l else l ++ [x])).Nodup := by
    intro l hl
    unfold sortIds
    rw [(List.perm_insertionSort _ _).nodup_iff]
    split
    · exact hl
    · rename_i hxl
      rw [List.nodup_append']
      exact ⟨hl, by simp, fun a ha ha' => hxl (by rw [List.mem_singleton.1 ha'] at ha; exact ha)⟩
  unfold tierValidators
  dsimp only
  apply aux
  split
  · exact elems_nodup _
  · rename_i hs
    have hl := h.resolve_left hs
    split
    · exact hl.filter _
    · exact (hl.filter _).filter _

/-- C68: a node without any links is left alone. Otherwise the node gets a quorum set of itself and the
preferred neighbours (with `symmetry_enforcing`, also what the preferred neighbours trust if they trust
the node), in ascending order; the effect is `Change` iff this differs from what the node had. Nobody
else is changed, and nothing panics. -/
theorem C68_configure (R : Rand) (g : Graph) (hg : LinksInRange g) (sc : List ℚ)
    (hsc : sc.length = g.outlinks.length) (rel : Option ℚ) (sym : Bool) (f : Fbas) (s : R.State)
    (x : NodeId) (q : QuorumSet) (hx : HasQSet f x q) (hxg : x < g.outlinks.length) :
    (((∃ j, Link g x j) ∨ ∃ i, Link g i x) →
      ∃ c f' vs, Qsc.higherTierNeighbors R g sc rel sym x (f, s) = .ok (c, f', s) ∧
        HasQSet f' x ⟨Qsc.calculateThreshold vs.length rel, vs, []⟩ ∧
        vs.Pairwise (· ≤ ·) ∧
        (sym = true ∨ (∀ l, g.outlinks[x]? = some l → l.Nodup) → vs.Nodup) ∧
        (∀ y, y ∈ vs ↔ y = x ∨
          if sym = true then PreferredSym g (scoreOf sc) f x y else Preferred g (scoreOf sc) x y) ∧
        (c = .noChange ↔ HasQSet f' x q) ∧
        (∀ y q', y ≠ x → (HasQSet f' y q' ↔ HasQSet f y q')) ∧
        f'.nodes.map Node.publicKey = f.nodes.map Node.publicKey ∧ f'.pkToId = f.pkToId) ∧
    (¬ ((∃ j, Link g x j) ∨ ∃ i, Link g i x) →
      Qsc.higherTierNeighbors R g sc rel sym x (f, s) = .ok (.noChange, f, s)) := by
  rw [higherTier_eq R hg hsc rel sym f s hxg]
  constructor
  · intro hcon
    rw [if_pos (mem_getConnectedNodes.2 hcon)]
    obtain ⟨hxn, -⟩ := existing_eq hx
    obtain ⟨c, f', h1, h2, h3, h4, -⟩ := replace_spec (s := s) hxn
      ⟨Qsc.calculateThreshold (tierValidators g sc f sym x).length rel,
          tierValidators g sc f sym x, []⟩
    have hq' := h3 x
    rw [if_pos rfl] at hq'
    refine ⟨c, f', _, h1, ?_, sortIds_pairwise _, ?_, fun y => mem_tierValidators, ?_, ?_,
      h2.1, h2.2⟩
    · rw [← getQuorumSet_iff, hq']
      cases rel <;> rfl
    · intro h
      refine nodup_tierValidators (h.imp id fun h => h _ ?_)
      rw [List.getElem?_eq_getElem hxg]; simp [hxg]
    · rw [← getQuorumSet_iff, hq']
      rw [getQuorumSet_iff.2 hx] at h4
      cases c
      · simp at h4 ⊢; exact fun h => h4 h.symm
      · simp at h4 ⊢; exact h4.symm
    · intro y q' hy
      rw [← getQuorumSet_iff, ← getQuorumSet_iff, h3, if_neg hy]
  · intro hcon
    rw [if_neg (fun h => hcon (mem_getConnectedNodes.1 h))]

/-- C68: a configuration that does not change any more, with `symmetry_enforcing`: nodes that prefer each
other have the same quorum set. -/
theorem C68_symmetric (R : Rand) (g : Graph) (hg : LinksInRange g) (sc : List ℚ)
    (hsc : sc.length = g.outlinks.length) (rel : Option ℚ) (f : Fbas) (s : R.State)
    (hn : f.nodes.length ≤ g.outlinks.length)
    (hstable : ∀ x < f.nodes.length,
      Qsc.higherTierNeighbors R g sc rel true x (f, s) = .ok (.noChange, f, s))
    (x y : NodeId) (hxy : Preferred g (scoreOf sc) x y) (hyx : Preferred g (scoreOf sc) y x)
    (qx qy : QuorumSet) (hx : HasQSet f x qx) (hy : HasQSet f y qy) : qx = qy := by
  have key : ∀ x y qx, Preferred g (scoreOf sc) x y → HasQSet f x qx →
      ∃ vs, qx = ⟨Qsc.calculateThreshold vs.length rel, vs, []⟩ ∧ vs.Pairwise (· ≤ ·) ∧ vs.Nodup ∧
        ∀ z, z ∈ vs ↔ z = x ∨ PreferredSym g (scoreOf sc) f x z := by
    intro x y qx hp hx
    obtain ⟨hxn, -⟩ := existing_eq hx
    obtain ⟨c, f', vs, h1, h2, h3, h4, h5, -⟩ := (C68_configure R g hg sc hsc rel true f s x qx hx
      (Nat.lt_of_lt_of_le hxn hn)).1 (.inl ⟨y, hp.1⟩)
    rw [hstable x hxn] at h1
    obtain ⟨-, h6⟩ := Prod.mk.inj (Except.ok.inj h1)
    obtain ⟨rfl, -⟩ := Prod.mk.inj h6
    refine ⟨vs, ?_, h3, h4 (.inl rfl), h5⟩
    rw [← getQuorumSet_iff] at hx h2
    rw [hx] at h2
    rw [Option.some.inj h2]
  obtain ⟨vx, rfl, a1, a2, a3⟩ := key x y qx hxy hx
  obtain ⟨vy, rfl, b1, b2, b3⟩ := key y x qy hyx hy
  have sub : ∀ x y (vx vy : List NodeId) tx ty, Preferred g (scoreOf sc) x y →
      Preferred g (scoreOf sc) y x → HasQSet f y ⟨ty, vy, []⟩ →
      (∀ z, z ∈ vx ↔ z = x ∨ PreferredSym g (scoreOf sc) f x z) →
      (∀ z, z ∈ vy ↔ z = y ∨ PreferredSym g (scoreOf sc) f y z) → tx = vx.length →
      ∀ z, z ∈ vy → z ∈ vx := by
    intro x y vx vy tx ty hxy hyx hy hvx hvy _ z hz
    rw [hvx]
    refine .inr (.inr ⟨y, _, hxy, hy, .validator ?_, .validator hz⟩)
    exact (hvy x).2 (.inr (.inl hyx))
  have hmem : ∀ z, z ∈ vx ↔ z ∈ vy := fun z =>
    ⟨sub y x vy vx _ _ hyx hxy hx b3 a3 rfl z, sub x y vx vy _ _ hxy hyx hy a3 b3 rfl z⟩
  have : vx = vy := by
    have hp : vx.Perm vy := (List.perm_ext_iff_of_nodup a2 b2).2 hmem
    exact hp.eq_of_pairwise (fun a b _ _ h1 h2 => Nat.le_antisymm h1 h2) a1 b1
  rw [this]

/-- The configuration that `HigherTierNeighborsQsc` chooses for `x` without `symmetry_enforcing`. -/
def tierTarget (g : Graph) (sc : List ℚ) (rel : Option ℚ) (x : NodeId) : QuorumSet :=
  if x ∈ g.getConnectedNodes then
    ⟨Qsc.calculateThreshold (tierValidators g sc Fbas.new false x).length rel,
      tierValidators g sc Fbas.new false x, []⟩
  else QuorumSet.empty

theorem tier_oneShot (R : Rand) {g : Graph} (hg : LinksInRange g) {sc : List ℚ}
    (hsc : sc.length = g.outlinks.length) (rel : Option ℚ) :
    OneShot (Qsc.higherTierNeighbors R g sc rel false) g.outlinks.length (tierTarget g sc rel) := by
  intro f s x hx hxg
  have heq := higherTier_eq R hg hsc rel false f s hxg
  have hf : tierValidators g sc f false x = tierValidators g sc Fbas.new false x := rfl
  rw [hf] at heq
  by_cases hc : x ∈ g.getConnectedNodes
  · rw [if_pos hc] at heq
    have ht : tierTarget g sc rel x =
        ⟨Qsc.calculateThreshold (tierValidators g sc Fbas.new false x).length rel,
          tierValidators g sc Fbas.new false x, []⟩ := by unfold tierTarget; rw [if_pos hc]
    rw [← ht] at heq
    obtain ⟨c, f', h1, h2, h3, h4, h5⟩ := replace_spec (s := s) hx (tierTarget g sc rel x)
    rw [h1] at heq
    refine ⟨fun _ => ⟨c, f', s, heq, h2, h3⟩, fun hq => ?_⟩
    have hcn : c = .noChange := by
      cases c
      · exact absurd (getQuorumSet_iff.2 hq) (h4.1 rfl)
      · rfl
    rw [h5 hcn] at heq
    exact ⟨c, s, heq⟩
  · rw [if_neg hc] at heq
    have ht : tierTarget g sc rel x = QuorumSet.empty := by unfold tierTarget; rw [if_neg hc]
    refine ⟨fun he => ⟨.noChange, f, s, heq, ⟨rfl, rfl⟩, fun y => ?_⟩, fun _ => ⟨.noChange, s, heq⟩⟩
    rw [ht]
    split
    · rename_i h; rw [h]; exact getQuorumSet_iff.2 he
    · rfl

/-- C68: growing an FBAS up to the size of the graph, without `symmetry_enforcing`, never panics, and the
result is determined by the graph and the scores: every node with links trusts itself and the preferred
neighbours. -/
theorem C68_growth (R : Rand) (g : Graph) (hg : LinksInRange g) (sc : List ℚ)
    (hsc : sc.length = g.outlinks.length) (rel : Option ℚ) (n : ℕ) (hn : n ≤ g.outlinks.length)
    (s : R.State) :
    ∃ sim', simulateGrowth (Qsc.higherTierNeighbors R g sc rel false) n ⟨Fbas.new, [], s⟩ = .ok sim' ∧
      sim'.fbas.nodes.map Node.publicKey = (List.range n).map (fun i => "n" ++ toString i) ∧
      ∀ x < n,
        (((∃ j, Link g x j) ∨ ∃ i, Link g i x) → ∃ vs, HasQSet sim'.fbas x ⟨Qsc.calculateThreshold vs.length rel, vs, []⟩ ∧
          vs.Pairwise (· ≤ ·) ∧ (∀ y, y ∈ vs ↔ y = x ∨ Preferred g (scoreOf sc) x y) ∧
          ((∀ l, g.outlinks[x]? = some l → l.Nodup) → vs.Nodup)) ∧
        (¬ ((∃ j, Link g x j) ∨ ∃ i, Link g i x) → HasQSet sim'.fbas x QuorumSet.empty) := by
  obtain ⟨sim', h1, h2, h3⟩ := growth_oneShot_from_empty (tier_oneShot R hg hsc rel) n hn s
  refine ⟨sim', h1, h2, fun x hx => ?_⟩
  have hlen : sim'.fbas.nodes.length = n := by
    have := congrArg List.length h2; simpa using this
  have hq := h3 x (by rw [hlen]; exact hx)
  have hxg : x < g.outlinks.length := Nat.lt_of_lt_of_le hx hn
  unfold tierTarget at hq
  constructor
  · intro hc
    rw [if_pos (mem_getConnectedNodes.2 hc)] at hq
    refine ⟨tierValidators g sc Fbas.new false x, ?_, sortIds_pairwise _,
      fun y => mem_tierValidators (sym := false), fun hnd => ?_⟩
    · cases rel <;> exact hq
    · refine nodup_tierValidators (.inr (hnd _ ?_))
      rw [List.getElem?_eq_getElem hxg]; simp [hxg]
  · intro hc
    rw [if_neg (fun h => hc (mem_getConnectedNodes.1 h))] at hq
    exact hq

/-- C68: in a full mesh of `n ≥ 2` nodes with equal positive scores (with exact arithmetic they are equal
and positive, by `C66_regular`) this is like `IdealQsc`, as the test `higher_tier_qsc_can_be_like_ideal_safe`
expects. -/
theorem C68_like_ideal (R : Rand) (n : ℕ) (hn : 2 ≤ n) (v : ℚ) (hv : 0 < v) (s : R.State) :
    ∃ sim', simulateGrowth (Qsc.higherTierNeighbors R (Graph.newFullMesh n) (List.replicate n v) none
        false) n ⟨Fbas.new, [], s⟩ = .ok sim' ∧ sim'.fbas.nodes.length = n ∧
      AllHave sim'.fbas ⟨Qsc.calculate67pThreshold n, List.range n, []⟩ := by
  obtain ⟨sim', h1, h2, h3⟩ := C68_growth R (Graph.newFullMesh n) (fullMesh_inRange n)
    (List.replicate n v) (by rw [length_fullMesh]; simp) none n (by rw [length_fullMesh]) s
  have hlen : sim'.fbas.nodes.length = n := by
    have := congrArg List.length h2; simpa using this
  refine ⟨sim', h1, hlen, fun x hx => ?_⟩
  rw [hlen] at hx
  have hlink : ∀ i j, Link (Graph.newFullMesh n) i j ↔ i < n ∧ j < n ∧ i ≠ j := (C47_full_mesh n).2.1
  have hsc : ∀ y < n, scoreOf (List.replicate n v) y = v := by
    intro y hy; unfold scoreOf; simp [hy]
  obtain ⟨y, hy, hne⟩ : ∃ y < n, x ≠ y := by
    rcases Nat.eq_zero_or_pos x with h | h
    · exact ⟨1, by omega, by rw [h]; decide⟩
    · exact ⟨0, by omega, Nat.pos_iff_ne_zero.1 h⟩
  obtain ⟨vs, a1, a2, a3, a4⟩ := (h3 x hx).1 (.inl ⟨y, (hlink x y).2 ⟨hx, hy, hne⟩⟩)
  have hmem : ∀ y, y ∈ vs ↔ y < n := by
    intro y
    rw [a3]
    constructor
    · rintro (rfl | h)
      · exact hx
      · exact ((hlink _ _).1 h.1).2.1
    · intro hy
      by_cases hxy : y = x
      · exact .inl hxy
      · refine .inr ⟨(hlink x y).2 ⟨hx, hy, fun h => hxy h.symm⟩, .inr ⟨fun z hz => ?_, ?_⟩⟩
        · rw [hsc z ((hlink _ _).1 hz).2.1, hsc x hx]; linarith
        · rw [hsc x hx, hsc y hy]; linarith
  have hnd : vs.Nodup := a4 fun l hl => 
    nodup_of_sorted ((C47_full_mesh n).2.2 l (List.mem_of_getElem? hl))
  have hvs : vs = List.range n := by
    have hp : vs.Perm (List.range n) :=
      (List.perm_ext_iff_of_nodup hnd List.nodup_range).2 fun y => by rw [hmem, List.mem_range]
    exact hp.eq_of_pairwise (fun a b _ _ h1 h2 => Nat.le_antisymm h1 h2) a2
      (List.pairwise_lt_range.imp Nat.le_of_lt)
  rw [hvs, List.length_range] at a1
  exact a1

/-- C68: a node with links but without preferred neighbours (all of them have at most half of its score,
or there are only links into it) becomes a quorum of its own. So if there are two such nodes, the result
does not enjoy quorum intersection. -/
theorem C68_no_intersection (R : Rand) (g : Graph) (hg : LinksInRange g) (sc : List ℚ)
    (hsc : sc.length = g.outlinks.length) (n : ℕ) (hn : n ≤ g.outlinks.length) (s : R.State)
    (sim' : Simulator R)
    (h : simulateGrowth (Qsc.higherTierNeighbors R g sc none false) n ⟨Fbas.new, [], s⟩ = .ok sim')
    (x : NodeId) (hx : x < n) (hxc : (∃ j, Link g x j) ∨ ∃ i, Link g i x)
    (hxp : ∀ z, ¬ Preferred g (scoreOf sc) x z) (hnd : ∀ l, g.outlinks[x]? = some l → l.Nodup) :
    IsQuorum sim'.fbas {x} ∧
    ∀ y < n, y ≠ x → ((∃ j, Link g y j) ∨ ∃ i, Link g i y) →
      (∀ z, ¬ Preferred g (scoreOf sc) y z) → (∀ l, g.outlinks[y]? = some l → l.Nodup) →
      ¬ QuorumIntersection sim'.fbas := by
  obtain ⟨sim'', h1, -, h3⟩ := C68_growth R g hg sc hsc none n hn s
  rw [h1] at h
  obtain rfl := Except.ok.inj h
  have key : ∀ x < n, ((∃ j, Link g x j) ∨ ∃ i, Link g i x) →
      (∀ z, ¬ Preferred g (scoreOf sc) x z) → (∀ l, g.outlinks[x]? = some l → l.Nodup) →
      IsQuorum sim''.fbas {x} := by
    intro x hx hc hp hnd
    obtain ⟨vs, a1, a2, a3, a4⟩ := (h3 x hx).1 hc
    have hvs : vs = [x] := by
      have hp : vs.Perm [x] := (List.perm_ext_iff_of_nodup (a4 hnd) (by simp)).2 fun y => by
        rw [a3, List.mem_singleton]
        exact ⟨fun h => h.resolve_right (hp y), .inl⟩
      exact List.perm_singleton.1 hp
    subst hvs
    refine ⟨⟨x, Finset.mem_singleton_self x⟩, fun y hy => ?_⟩
    obtain rfl := Finset.mem_singleton.1 hy
    refine ⟨_, a1, .intro _ [y] [] (List.Sublist.refl _) (List.Sublist.refl _) ?_ ?_ ?_ ?_⟩
    · intro v hv
      rw [List.mem_singleton.1 hv]; exact Finset.mem_singleton_self y
    · intro q hq; cases hq
    · show 1 ≤ Qsc.calculate67pThreshold 1; decide
    · show 1 = Qsc.calculate67pThreshold 1; decide
  refine ⟨key x hx hxc hxp hnd, fun y hy hyx hyc hyp hynd hqi => ?_⟩
  obtain ⟨z, hz1, hz2⟩ := hqi.2 _ _ (key x hx hxc hxp hnd) (key y hy hyc hyp hynd)
  exact hyx ((Finset.mem_singleton.1 hz2).symm.trans (Finset.mem_singleton.1 hz1))

/-- C68: a node with score 0 regards all its neighbours as higher tier, also those with score 0. -/
theorem C68_zero_score (g : Graph) (sc : List ℚ) (x y : NodeId) (h0 : scoreOf sc x = 0)
    (hy : 0 ≤ scoreOf sc y) (hl : Link g x y) : Preferred g (scoreOf sc) x y :=
  ⟨hl, .inl (by rw [h0]; linarith)⟩

/-- Two stars with 3 leaves each; the centers are 0 and 4. -/
def twoStars : Graph := ⟨[[1, 2, 3], [0], [0], [0], [5, 6, 7], [4], [4], [4]]⟩

/-- Concrete case: scores of two stars after an even number of steps. The centers have only lower tier
neighbours; so both are quorums of their own. -/
example : Qsc.neighborsByTierness twoStars [3/8, 1/24, 1/24, 1/24, 3/8, 1/24, 1/24, 1/24] 0
      = .ok ([], [], [1, 2, 3]) ∧
    Qsc.neighborsByTierness twoStars [3/8, 1/24, 1/24, 1/24, 3/8, 1/24, 1/24, 1/24] 5
      = .ok ([4], [], []) :=
  ⟨Ref.ok_of (by decide +kernel), Ref.ok_of (by decide +kernel)⟩

theorem twoStars_inRange : LinksInRange twoStars := by
  rintro i j ⟨l, hl, hj⟩
  have : ∀ l ∈ twoStars.outlinks, ∀ j ∈ l, j < twoStars.outlinks.length := by decide
  exact this l (List.mem_of_getElem? hl) j hj

theorem twoStars_undirected : Undirected twoStars := by
  rintro i j ⟨l, hl, hj⟩
  have : ∀ i < 8, ∀ j ∈ (twoStars.outlinks[i]?).getD [], i ∈ (twoStars.outlinks[j]?).getD [] := by decide
  have hi : i < 8 := (List.getElem?_eq_some_iff.1 hl).1
  have h := this i hi j (by rw [hl]; exact hj)
  cases hl' : twoStars.outlinks[j]? with
  | none => rw [hl'] at h; cases h
  | some l' => rw [hl'] at h; exact ⟨l', hl', h⟩

/-- The scores above. -/
def twoStarsScores : List ℚ := [3/8, 1/24, 1/24, 1/24, 3/8, 1/24, 1/24, 1/24]

/-- The centers prefer no node. -/
theorem twoStars_center (x : NodeId) (hx : x = 0 ∨ x = 4) (z : NodeId) :
    ¬ Preferred twoStars (scoreOf twoStarsScores) x z := by
  rintro ⟨⟨l, hl, hz⟩, h⟩
  have key : ∀ x ∈ [0, 4], ∀ z ∈ (twoStars.outlinks[x]?).getD [],
      ¬ 2 * scoreOf twoStarsScores x ≤ scoreOf twoStarsScores z ∧
        ¬ scoreOf twoStarsScores x < 2 * scoreOf twoStarsScores z := by decide +kernel
  obtain ⟨k1, k2⟩ := key x (by simpa using hx) z (by rw [hl]; exact hz)
  rcases h with h | ⟨-, h⟩
  · exact k1 h
  · exact k2 h

/-- Concrete case of `C68_growth` and `C68_no_intersection`: every center is a quorum, so there is no quorum
intersection. -/
example (R : Rand) (s : R.State) : ∃ sim', simulateGrowth
      (Qsc.higherTierNeighbors R twoStars twoStarsScores none false) 8 ⟨Fbas.new, [], s⟩ = .ok sim' ∧
    IsQuorum sim'.fbas {0} ∧ ¬ QuorumIntersection sim'.fbas := by
  obtain ⟨sim', h1, -⟩ := C68_growth R twoStars twoStars_inRange twoStarsScores rfl none 8 (le_refl 8) s
  have hn : ∀ (x : NodeId) (l : List NodeId), twoStars.outlinks[x]? = some l → l.Nodup := by
    have : ∀ l ∈ twoStars.outlinks, l.Nodup := by decide
    exact fun x l hl => this l (List.mem_of_getElem? hl)
  obtain ⟨a1, a2⟩ := C68_no_intersection R twoStars twoStars_inRange twoStarsScores rfl 8 (le_refl 8) s sim' h1 0
    (by decide) (.inl ⟨1, _, rfl, by simp⟩) (twoStars_center 0 (.inl rfl)) (hn 0)
  exact ⟨sim', h1, a1, a2 4 (by decide) (by decide) (.inl ⟨5, _, rfl, by simp⟩)
    (twoStars_center 4 (.inr rfl)) (hn 4)⟩

/-- Concrete case of `C68_tierness` and `C68_mutual`: a center and a leaf. -/
example : (0 : NodeId) ∈ ([0] : List NodeId) ↔ (1 : NodeId) ∈ ([1, 2, 3] : List NodeId) :=
  (C68_mutual twoStars twoStars_inRange twoStars_undirected twoStarsScores rfl 1 0 (by decide +kernel)
    (by decide +kernel) [0] [] [] [] [] [1, 2, 3] (Ref.ok_of (by decide +kernel))
    (Ref.ok_of (by decide +kernel))).1

/-- Concrete case of `C68_configure`: a leaf in an FBAS without quorum sets trusts itself and the center. -/
example (R : Rand) (s : R.State) : ∃ f' vs, Qsc.higherTierNeighbors R twoStars twoStarsScores none false 5
      (Ref.mkFbas (List.replicate 8 QuorumSet.empty), s) = .ok (.change, f', s) ∧
    HasQSet f' 5 ⟨Qsc.calculateThreshold vs.length none, vs, []⟩ ∧ (4 ∈ vs ∧ 5 ∈ vs ∧ 6 ∉ vs) := by
  obtain ⟨c, f', vs, h1, h2, -, -, h3, h4, -⟩ := (C68_configure R twoStars twoStars_inRange twoStarsScores rfl
    none false (Ref.mkFbas (List.replicate 8 QuorumSet.empty)) s 5 QuorumSet.empty ⟨_, rfl, rfl⟩
    (by decide)).1 (.inl ⟨4, _, rfl, by simp⟩)
  have hv : 4 ∈ vs ∧ 5 ∈ vs ∧ 6 ∉ vs := by
    refine ⟨(h3 4).2 (.inr ⟨⟨_, rfl, by simp⟩, .inl (by decide +kernel)⟩), (h3 5).2 (.inl rfl),
      fun h => ?_⟩
    rcases (h3 6).1 h with h | ⟨⟨l, hl, h6⟩, -⟩
    · cases h
    · cases hl; cases h6 with
      | tail _ h => cases h
  have hc : c = .change := by
    cases c with
    | change => rfl
    | noChange =>
      obtain ⟨n, a1, a2⟩ := h4.1 rfl
      obtain ⟨m, b1, b2⟩ := h2
      rw [a1] at b1
      rw [Option.some.inj b1, b2] at a2
      have := congrArg QuorumSet.validators a2
      rw [show vs = [] from this] at hv
      cases hv.1
  subst hc
  exact ⟨f', vs, h1, h2, hv⟩

/-- Two nodes that trust each other. -/
def fbasPair : Fbas := Ref.mkFbas [⟨2, [0, 1], []⟩, ⟨2, [0, 1], []⟩]

/-- Concrete case of `C68_symmetric`. -/
example (R : Rand) (s : R.State) : (∀ x < fbasPair.nodes.length,
      Qsc.higherTierNeighbors R (Graph.newFullMesh 2) [1/2, 1/2] none true x (fbasPair, s) =
        .ok (.noChange, fbasPair, s)) ∧
    Preferred (Graph.newFullMesh 2) (scoreOf [1/2, 1/2]) 0 1 ∧
    Preferred (Graph.newFullMesh 2) (scoreOf [1/2, 1/2]) 1 0 := by
  refine ⟨fun x hx => ?_, ?_, ?_⟩
  · have : x = 0 ∨ x = 1 := by
      have : x < 2 := hx
      rcases x with _ | _ | x
      · exact .inl rfl
      · exact .inr rfl
      · omega
    have key : ∀ x, (x = 0 ∨ x = 1) → ∀ vs, (if x ∈ vs then vs else vs ++ [x]) = vs → sortIds vs = [0, 1] →
        Qsc.replaceIfDifferent R ⟨Qsc.calculateThreshold
          (sortIds (if x ∈ vs then vs else vs ++ [x])).length none,
          sortIds (if x ∈ vs then vs else vs ++ [x]), []⟩ x (fbasPair, s) = .ok (.noChange, fbasPair, s) := by
      intro x hx vs h1 h2
      rw [h1, h2]
      rcases hx with rfl | rfl <;> rfl
    unfold Qsc.higherTierNeighbors
    rcases this with rfl | rfl
    · rw [if_pos (by decide +kernel), show Qsc.neighborsByTierness (Graph.newFullMesh 2) [1/2, 1/2] 0 =
        .ok ([], [1], []) from Ref.ok_of (by decide +kernel)]
      exact key 0 (.inl rfl) (elems (Qsc.symmetryCorrection fbasPair 0 [1])) (by decide +kernel) (by decide +kernel)
    · rw [if_pos (by decide +kernel), show Qsc.neighborsByTierness (Graph.newFullMesh 2) [1/2, 1/2] 1 =
        .ok ([], [0], []) from Ref.ok_of (by decide +kernel)]
      exact key 1 (.inr rfl) (elems (Qsc.symmetryCorrection fbasPair 1 [0])) (by decide +kernel) (by decide +kernel)
  · refine ⟨⟨_, rfl, by decide +kernel⟩, .inr ⟨fun z hz => ?_, by decide +kernel⟩⟩
    have : z < 2 := fullMesh_inRange 2 _ _ hz
    have : ∀ z < 2, scoreOf [1/2, 1/2] z < 2 * scoreOf [1/2, 1/2] 0 := by decide +kernel
    exact this z (by assumption)
  · refine ⟨⟨_, rfl, by decide +kernel⟩, .inr ⟨fun z hz => ?_, by decide +kernel⟩⟩
    have : z < 2 := fullMesh_inRange 2 _ _ hz
    have : ∀ z < 2, scoreOf [1/2, 1/2] z < 2 * scoreOf [1/2, 1/2] 1 := by decide +kernel
    exact this z (by assumption)

#print axioms C68_tierness
#print axioms C68_mutual
#print axioms C68_configure
#print axioms C68_symmetric
#print axioms C68_growth
#print axioms C68_like_ideal
#print axioms C68_no_intersection
#print axioms C68_zero_score

end FA.Props
