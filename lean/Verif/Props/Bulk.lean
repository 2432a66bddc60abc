import Verif.Lemmas.Bulk
import Verif.Ref.Decide
import Verif.Model.Blocking

/-!
# Properties of the bulk analysis programs (C56, C57)
-/

namespace FA.Props
open FA Spec Bulk

/-! ### Performance experiment -/

/-- C56: The quorums of `make_almost_ideal_fbas(n)` are the sets with at least
`calculate_67p_threshold(n)` of the `n` nodes, although the quorum set of node 0 is different from
the others. -/
theorem C56_almost_ideal (n : ℕ) (hn : 1 ≤ n) :
    ∃ f, makeAlmostIdealFbas n = .ok f ∧ f.nodes.length = n ∧
      HasQSet f 0 ⟨n - (n - 1) / 3 + 1, List.range n ++ [0], []⟩ ∧
      ∀ Q, IsQuorum f Q ↔ (∀ x ∈ Q, x < n) ∧ n - (n - 1) / 3 ≤ Q.card := by
  have ht := C41_bounds n hn
  obtain ⟨f, h1, h2, h3, h4⟩ := almostSymmetric_spec
    ⟨Qsc.calculate67pThreshold n, rangeFT 0 n, []⟩ hn
  refine ⟨f, h1, h2, ?_, fun Q => ?_⟩
  · rw [rangeFT_zero] at h3; exact h3
  · rw [almostSymmetric_quorum_iff ht.1 h2 h3 h4, rangeFT_zero]
    constructor
    · rintro ⟨-, h5, h6⟩
      exact ⟨h5, ((slice_range_iff (fun x hx => Finset.mem_range.2 (h5 x hx))).1 h6).2⟩
    · rintro ⟨h5, h6⟩
      have h7 : Qsc.calculate67pThreshold n ≤ Q.card := h6
      refine ⟨Finset.card_pos.1 (by omega), h5, ?_⟩
      exact (slice_range_iff (fun x hx => Finset.mem_range.2 (h5 x hx))).2 ⟨ht.1, h7⟩

/-- C56: The FBAS has the same quorums as the symmetric FBAS in which all `n` nodes have the quorum
set of all `n` nodes with threshold `calculate_67p_threshold(n)`. All sets that are reported by the
analysis are defined in terms of the quorums. -/
theorem C56_same_as_ideal (n : ℕ) (hn : 1 ≤ n) (g : Fbas) (hg : g.nodes.length = n)
    (hq : AllHave g ⟨n - (n - 1) / 3, List.range n, []⟩) :
    ∃ f, makeAlmostIdealFbas n = .ok f ∧ (∀ Q, IsQuorum f Q ↔ IsQuorum g Q) ∧
      (∀ Q, IsMinQuorum f Q ↔ IsMinQuorum g Q) ∧ (∀ B, IsMinBlocking f B ↔ IsMinBlocking g B) ∧
      (∀ S, IsMinSplitting f S ↔ IsMinSplitting g S) ∧
      (QuorumIntersection f ↔ QuorumIntersection g) := by
  obtain ⟨f, h1, -, -, h2⟩ := C56_almost_ideal n hn
  have h3 : IsQuorum f = IsQuorum g := by
    funext Q
    have := threshold_quorum_iff (f := g) (t := n - (n - 1) / 3) (by rw [hg]; exact hq) (by omega)
      (Q := Q)
    rw [eq_iff_iff, h2, this, hg]
    refine and_congr_left (fun _ => ⟨fun h x hx => Finset.mem_range.2 (h x hx), fun h x hx =>
      Finset.mem_range.1 (h hx)⟩)
  refine ⟨f, h1, fun Q => by rw [h3], fun Q => ?_, fun B => ?_, fun S => ?_, ?_⟩
  · unfold IsMinQuorum; rw [h3]
  · unfold IsMinBlocking Blocking; rw [h3]
  · unfold IsMinSplitting Splitting IsMinQuorum; rw [h3]
  · unfold QuorumIntersection; rw [h3]

/-- C56: The quorums of `make_almost_ideal_stellarlike_fbas(3m)` are the sets of nodes in which at
least `calculate_67p_threshold(m)` of the `m` organizations are represented by at least two of their
three nodes. -/
theorem C56_stellarlike (m : ℕ) (hm : 1 ≤ m) :
    ∃ f, makeAlmostIdealStellarlikeFbas (3 * m) = .ok f ∧ f.nodes.length = 3 * m ∧
      ∀ Q, IsQuorum f Q ↔ (∀ x ∈ Q, x < 3 * m) ∧ m - (m - 1) / 3 ≤
        ((Finset.range m).filter
          (fun o => 2 ≤ ({3 * o, 3 * o + 1, 3 * o + 2} ∩ Q).card)).card := by
  have ht := C41_bounds m hm
  obtain ⟨f, h1, h2, h3, h4⟩ := almostSymmetric_spec (stellarlikeQuorumSet m)
    (n := 3 * m) (by omega)
  refine ⟨f, ?_, h2, fun Q => ?_⟩
  · unfold makeAlmostIdealStellarlikeFbas
    rw [if_pos (by omega), show 3 * m / 3 = m by omega]
    exact h1
  · rw [almostSymmetric_quorum_iff ht.1 h2 h3 h4, slice_stellarlike_iff hm]
    constructor
    · rintro ⟨-, h5, h6⟩
      exact ⟨h5, h6⟩
    · rintro ⟨h5, h6⟩
      refine ⟨?_, h5, h6⟩
      have h7 : Qsc.calculate67pThreshold m ≤ _ := h6
      obtain ⟨o, ho⟩ := Finset.card_pos.1 (Nat.lt_of_lt_of_le ht.1 h7)
      have h8 := (Finset.mem_filter.1 ho).2
      obtain ⟨x, hx⟩ := Finset.card_pos.1 (Nat.lt_of_lt_of_le (by omega) h8)
      exact ⟨x, (Finset.mem_inter.1 hx).2⟩

/-- C56: The constructions panic for 0 nodes, and the second one if the number of nodes is not a
multiple of 3. -/
theorem C56_panics (n : ℕ) :
    ((∃ e, makeAlmostIdealFbas n = .error e) ↔ n = 0) ∧
      ((∃ e, makeAlmostIdealStellarlikeFbas n = .error e) ↔ n = 0 ∨ ¬ 3 ∣ n) := by
  constructor
  · constructor
    · rintro ⟨e, h⟩
      by_contra hn
      obtain ⟨f, h1, -⟩ := C56_almost_ideal n (by omega)
      rw [h1] at h; cases h
    · rintro rfl; exact ⟨_, rfl⟩
  · constructor
    · rintro ⟨e, h⟩
      by_contra hn
      rw [not_or, not_not] at hn
      obtain ⟨hn, m, rfl⟩ := hn
      obtain ⟨f, h1, -⟩ := C56_stellarlike m (by omega)
      rw [h1] at h; cases h
    · rintro (rfl | hn)
      · exact ⟨_, rfl⟩
      · refine ⟨.assertion, ?_⟩
        unfold makeAlmostIdealStellarlikeFbas
        rw [if_neg (by omega)]

/-- C56: The shortcut for symmetric clusters is not taken, as intended: there is no quorum set such
that all nodes it lists have this quorum set, and none is found in any set of nodes. -/
theorem C56_no_shortcut (n : ℕ) (f : Fbas)
    (hf : (makeAlmostIdealFbas n = .ok f ∧ 2 ≤ n) ∨
      makeAlmostIdealStellarlikeFbas n = .ok f) :
    (∀ q, (∃ x, Mentions q x) → ∃ x, Mentions q x ∧ ¬ HasQSet f x q) ∧
      ∀ S : NodeSet, (∀ x ∈ S, x < n) → findSymmetricClustersInNodeSet f S = [] := by
  have key : ∃ q, f.nodes.length = n ∧ HasQSet f 0 (zeroQuorumSet q) ∧
      (∀ x : ℕ, 0 < x → x < n → HasQSet f x q) ∧ Mentions q 0 ∧
      ∃ x : ℕ, 0 < x ∧ x < n ∧ Mentions q x := by
    rcases hf with ⟨hf, hn⟩ | hf
    · refine ⟨⟨Qsc.calculate67pThreshold n, rangeFT 0 n, []⟩, ?_⟩
      obtain ⟨f', h1, h2, h3, h4⟩ := almostSymmetric_spec
        ⟨Qsc.calculate67pThreshold n, rangeFT 0 n, []⟩ (n := n) (by omega)
      have : makeAlmostIdealFbas n = .ok f' := h1
      rw [this] at hf
      obtain rfl := Except.ok.inj hf
      exact ⟨h2, h3, h4, .validator (by simp; omega), 1, by omega, by omega,
        .validator (by simp; omega)⟩
    · have hn : ¬ (n = 0 ∨ ¬ 3 ∣ n) := by
        intro h
        obtain ⟨e, he⟩ := (C56_panics n).2.2 h
        rw [he] at hf; cases hf
      rw [not_or, not_not] at hn
      obtain ⟨hn, m, rfl⟩ := hn
      obtain ⟨f', h1, h2, h3, h4⟩ := almostSymmetric_spec (stellarlikeQuorumSet m)
        (n := 3 * m) (by omega)
      have : makeAlmostIdealStellarlikeFbas (3 * m) = .ok f' := by
        unfold makeAlmostIdealStellarlikeFbas
        rw [if_pos (by omega), show 3 * m / 3 = m by omega]
        exact h1
      rw [this] at hf
      obtain rfl := Except.ok.inj hf
      have hin : (⟨2, [0 * 3, 0 * 3 + 1, 0 * 3 + 2], []⟩ : QuorumSet) ∈
          (stellarlikeQuorumSet m).inner :=
        List.mem_map.2 ⟨0, by simp; omega, rfl⟩
      exact ⟨_, h2, h3, h4, .inner hin (.validator (by simp)), 1, by omega, by omega,
        .inner hin (.validator (by simp))⟩
  obtain ⟨q, h1, h2, h3, h4, h5⟩ := key
  have hno := almostSymmetric_no_cluster h2 h3 h4 h5
  refine ⟨fun p hp => ?_, hno⟩
  by_contra hc
  have hall : ∀ x, Mentions p x → HasQSet f x p := by
    intro x hx
    by_contra h
    exact hc ⟨x, hx, h⟩
  have hlt : ∀ x ∈ p.containedNodes, x < n := by
    intro x hx
    obtain ⟨node, h6, -⟩ := hall x (QuorumSet.mem_containedNodes.1 hx)
    rw [← h1]
    exact (List.getElem?_eq_some_iff.1 h6).1
  have : p ∈ findSymmetricClustersInNodeSet f p.containedNodes := by
    rw [mem_findSymmetricClustersInNodeSet]
    obtain ⟨x, hx⟩ := hp
    refine ⟨⟨x, QuorumSet.mem_containedNodes.2 hx⟩, fun y hy => ⟨hy, ?_⟩⟩
    obtain ⟨node, h6, h7⟩ := hall y (QuorumSet.mem_containedNodes.1 hy)
    unfold Fbas.qset
    rw [h6]
    exact h7
  rw [hno _ hlt] at this
  cases this

/-- C56: For `n = 1` the comment in the code ("0 implications for analysis", no optimizations) is
wrong: the single node lists itself twice and is recognized as a symmetric cluster, and the same
minimal blocking set is reported twice. -/
theorem C56_size_one : ∃ f, makeAlmostIdealFbas 1 = .ok f ∧
    f.nodes.map Node.quorumSet = [⟨2, [0, 0], []⟩] ∧
    findSymmetricClusters (Ref.refEnv 1) f = .ok [⟨2, [0, 0], []⟩] ∧
    findMinimalQuorums (Ref.refEnv 1) f = .ok [{0}] ∧
    findMinimalBlockingSets (Ref.refEnv 1) f = .ok [{0}, {0}] := by
  refine ⟨⟨[⟨"n0", ⟨2, [0, 0], []⟩⟩], [("n0", 0)]⟩, rfl, rfl, Ref.ok_of (by decide +kernel), Ref.ok_of (by decide +kernel),
    Ref.ok_of (by decide +kernel)⟩

/-- Concrete cases. -/
example : (makeAlmostIdealFbas 4).map (fun f => f.nodes.map Node.quorumSet) =
    .ok [⟨4, [0, 1, 2, 3, 0], []⟩, ⟨3, [0, 1, 2, 3], []⟩, ⟨3, [0, 1, 2, 3], []⟩,
      ⟨3, [0, 1, 2, 3], []⟩] := Ref.ok_of (by decide +kernel)

example : (makeAlmostIdealStellarlikeFbas 6).map (fun f => f.nodes.map Node.quorumSet) =
    .ok (⟨3, [0], [⟨2, [0, 1, 2], []⟩, ⟨2, [3, 4, 5], []⟩]⟩ ::
      List.replicate 5 ⟨2, [], [⟨2, [0, 1, 2], []⟩, ⟨2, [3, 4, 5], []⟩]⟩) :=
  Ref.ok_of (by decide +kernel)

/-! ### Task lists -/

/-- C57: The task list of both programs, for arbitrary inputs and existing results. The tasks are
sorted by label. The inputs without an existing result are analyzed, each as often as it occurs in
the inputs. The existing results are reused; of several results with the same key the last one. -/
theorem C57_tasklist {I O K L : Type} [LinearOrder K] [LinearOrder L] (keyI : I → K) (keyO : O → K)
    (labelI : I → L) (labelO : O → L) (inputs : List I) (lines : List O) :
    let tasks := makeSortedTasklist keyI labelI labelO inputs (loadExistingOutputs keyO lines)
    tasks.Pairwise (fun a b => a.label labelI labelO ≤ b.label labelI labelO) ∧
      (analyzed tasks).Perm (newInputs keyI keyO inputs lines) ∧
      (reused tasks).Perm (lastLines keyO lines) :=
  tasklist_spec keyI keyO labelI labelO inputs lines

/-- C57: No input and no existing result is lost or duplicated by `bulk_fbas_analyzer` if the labels
of the inputs and those of the existing results are different: then the labels of the tasks are
different and are those of the inputs and of the existing results. -/
theorem C57_analyzer {O : Type} (labelO : O → Text) (inputs : List Input) (lines : List O)
    (hi : (inputs.map Input.label).Nodup) (hl : (lines.map labelO).Nodup) :
    let tasks := analyzerTasks labelO inputs lines
    (tasks.map (Task.label Input.label labelO)).Pairwise (· < ·) ∧
      (∀ i, Task.analyze i ∈ tasks ↔ i ∈ inputs ∧ i.label ∉ lines.map labelO) ∧
      (∀ o, Task.reuse o ∈ tasks ↔ o ∈ lines) ∧
      tasks.length = lines.length +
        (newInputs Input.label labelO inputs lines).length := by
  intro tasks
  obtain ⟨h1, h2, h3⟩ := tasklist_spec Input.label labelO Input.label labelO inputs lines
  change tasks.Pairwise _ at h1
  change (analyzed tasks).Perm _ at h2
  change (reused tasks).Perm _ at h3
  rw [lastLines_eq hl] at h3
  have hperm : ∀ ts : List (Task Input O),
      (ts.map (Task.label Input.label labelO)).Perm
        ((analyzed ts).map Input.label ++ (reused ts).map labelO) := by
    intro ts
    induction ts with
    | nil => exact .nil
    | cons t ts ih =>
      cases t with
      | analyze i => exact ih.cons _
      | reuse o => exact (ih.cons _).trans (List.perm_middle).symm
  refine ⟨?_, fun i => ?_, fun o => ?_, ?_⟩
  · have hnd : (tasks.map (Task.label Input.label labelO)).Nodup := by
      rw [(hperm tasks).nodup_iff, List.nodup_append]
      refine ⟨?_, ?_, ?_⟩
      · rw [(h2.map _).nodup_iff]
        exact hi.sublist ((newInputs_sublist _ _ _ _).map _)
      · rw [(h3.map _).nodup_iff]; exact hl
      · intro a ha b hb hab
        subst hab
        obtain ⟨i, hi', rfl⟩ := List.mem_map.1 ha
        exact (mem_newInputs.1 (h2.mem_iff.1 hi')).2 (((h3.map labelO).mem_iff).1 hb)
    have hle := List.pairwise_map.2 h1
    exact (hle.and hnd).imp (fun h => lt_of_le_of_ne h.1 h.2)
  · rw [← mem_analyzed, h2.mem_iff, mem_newInputs]
  · rw [← mem_reused, h3.mem_iff]
  · have := (hperm tasks).length_eq
    rw [List.length_map, List.length_append, List.length_map, List.length_map, h2.length_eq,
      h3.length_eq] at this
    rw [this, Nat.add_comm]

theorem count_generateInputs (mx runs : ℕ) (stellarlike : Bool) :
    (generateInputs mx runs stellarlike).Nodup ∧
      ∀ m r : ℕ, toLex (m, r) ∈ generateInputs mx runs stellarlike ↔
        1 ≤ m ∧ m ≤ mx ∧ r < runs ∧ (stellarlike = true → 3 ∣ m) := by
  unfold generateInputs
  constructor
  · rw [List.nodup_flatMap]
    refine ⟨fun m _ => ?_, ?_⟩
    · refine (nodup_rangeFT 0 runs).map (fun a b h => ?_)
      exact (Prod.ext_iff.1 (toLex.injective h)).2
    · refine ((nodup_rangeFT 1 (mx + 1)).filter _).imp (fun {a b} hab => ?_)
      intro x hx hx'
      obtain ⟨r, -, rfl⟩ := List.mem_map.1 hx
      obtain ⟨r', -, h⟩ := List.mem_map.1 hx'
      exact hab (Prod.ext_iff.1 (toLex.injective h)).1.symm
  · intro m r
    rw [List.mem_flatMap]
    constructor
    · rintro ⟨m', hm', h⟩
      obtain ⟨r', hr', h⟩ := List.mem_map.1 h
      obtain ⟨rfl, rfl⟩ := Prod.ext_iff.1 (toLex.injective h)
      rw [List.mem_filter, mem_rangeFT] at hm'
      rw [mem_rangeFT] at hr'
      refine ⟨hm'.1.1, by omega, hr'.2, fun hs => ?_⟩
      have := hm'.2
      rw [hs] at this
      simp at this
      exact Nat.dvd_of_mod_eq_zero this
    · rintro ⟨h1, h2, h3, h4⟩
      refine ⟨m, List.mem_filter.2 ⟨mem_rangeFT.2 ⟨h1, by omega⟩, ?_⟩,
        List.mem_map.2 ⟨r, mem_rangeFT.2 ⟨by omega, h3⟩, rfl⟩⟩
      cases stellarlike with
      | false => rfl
      | true =>
        have := Nat.mod_eq_zero_of_dvd (h4 rfl)
        simp [this]

/-- C57: The tasks of the performance experiment: exactly one for each size `1 ≤ m ≤ max` (with
`--stellar-like` only multiples of 3) and run, in the order of the sizes; existing results with
different keys are kept. -/
theorem C57_performance {O : Type} (keyO : O → PerfInput) (mx runs : ℕ) (stellarlike : Bool)
    (lines : List O) (hl : (lines.map keyO).Nodup) :
    let tasks := performanceTasks keyO (generateInputs mx runs stellarlike) lines
    let key : Task PerfInput O → PerfInput := Task.label id keyO
    tasks.Pairwise (fun a b => (ofLex (key a)).1 ≤ (ofLex (key b)).1) ∧
      (tasks.map key).Nodup ∧
      (∀ o, Task.reuse o ∈ tasks ↔ o ∈ lines) ∧
      ∀ m r : ℕ, Task.analyze (toLex (m, r)) ∈ tasks ↔
        (1 ≤ m ∧ m ≤ mx ∧ r < runs ∧ (stellarlike = true → 3 ∣ m)) ∧
          toLex (m, r) ∉ lines.map keyO := by
  intro tasks key
  obtain ⟨h1, h2, h3⟩ := tasklist_spec id keyO (fun i => (ofLex i).1)
    (fun o => (ofLex (keyO o)).1) (generateInputs mx runs stellarlike) lines
  change tasks.Pairwise _ at h1
  change (analyzed tasks).Perm _ at h2
  change (reused tasks).Perm _ at h3
  rw [lastLines_eq hl] at h3
  obtain ⟨h4, h5⟩ := count_generateInputs mx runs stellarlike
  have hperm : ∀ ts : List (Task PerfInput O),
      (ts.map key).Perm (analyzed ts ++ (reused ts).map keyO) := by
    intro ts
    induction ts with
    | nil => exact .nil
    | cons t ts ih =>
      cases t with
      | analyze i => exact ih.cons _
      | reuse o => exact (ih.cons _).trans (List.perm_middle).symm
  refine ⟨h1.imp (fun {a b} h => ?_), ?_, fun o => ?_, fun m r => ?_⟩
  · cases a <;> cases b <;> exact h
  · rw [(hperm tasks).nodup_iff, List.nodup_append]
    refine ⟨?_, ?_, ?_⟩
    · rw [h2.nodup_iff]
      exact h4.sublist (newInputs_sublist _ _ _ _)
    · rw [(h3.map _).nodup_iff]; exact hl
    · intro a ha b hb hab
      subst hab
      exact (mem_newInputs.1 (h2.mem_iff.1 ha)).2 (((h3.map keyO).mem_iff).1 hb)
  · rw [← mem_reused, h3.mem_iff]
  · rw [← mem_analyzed, h2.mem_iff, mem_newInputs, h5]
    rfl

/-- Concrete cases. -/
example : performanceTasks (O := PerfInput × String) Prod.fst (generateInputs 4 2 false)
    [(toLex (2, 1), "old"), (toLex (9, 0), "more")] =
    [.analyze (toLex (1, 0)), .analyze (toLex (1, 1)), .analyze (toLex (2, 0)),
      .reuse (toLex (2, 1), "old"), .analyze (toLex (3, 0)), .analyze (toLex (3, 1)),
      .analyze (toLex (4, 0)), .analyze (toLex (4, 1)), .reuse (toLex (9, 0), "more")] := by
  decide +kernel

example : generateInputs 7 2 true =
    [toLex (3, 0), toLex (3, 1), toLex (6, 0), toLex (6, 1)] := by decide +kernel

/-! ### Input files -/

open Classical in
/-- C57: When `extract_inputs` fails: some file is not a `.json` file, or two files with organizations
have the same label (then the error message, which says that some files could not be recognized, is
misleading). -/
theorem C57_extract_error (paths : List Path) (ignore : Text) :
    extractInputs paths ignore = none ↔
      (∃ p ∈ paths, ¬ ".json".toList <:+ p.fileName) ∨
        ¬ ((paths.filter (fun p => decide (IsOrganizationsFile p))).map
          (fun p => extractLabel p ignore)).Nodup := by
  unfold extractInputs
  have horg : extractOrganizationsPathsByLabel paths ignore =
      loadExistingOutputs (fun p => extractLabel p ignore)
        (paths.filter (fun p => decide (IsOrganizationsFile p))) := by
    unfold extractOrganizationsPathsByLabel
    rw [organizationsFiles_eq]
    rfl
  obtain ⟨h1, h2⟩ := Map.collect_length (fun p => extractLabel p ignore)
    (paths.filter (fun p => decide (IsOrganizationsFile p)))
  rw [horg, extractNodesPaths_eq]
  have hcount : ∀ l : List Path,
      (l.filter (fun p => decide (IsNodesFile p))).length +
        (l.filter (fun p => decide (IsOrganizationsFile p))).length ≤ l.length ∧
      ((l.filter (fun p => decide (IsNodesFile p))).length +
        (l.filter (fun p => decide (IsOrganizationsFile p))).length = l.length ↔
        ∀ p ∈ l, ".json".toList <:+ p.fileName) := by
    intro l
    induction l with
    | nil => simp
    | cons p l ih =>
      simp only [List.filter_cons, List.length_cons, List.forall_mem_cons]
      by_cases hj : ".json".toList <:+ p.fileName
      · by_cases ho : "organizations".toList <:+: p.fileName
        · have a1 : ¬ IsNodesFile p := fun h => h.2 ho
          have a2 : IsOrganizationsFile p := ⟨hj, ho⟩
          simp only [a1, a2, decide_true, decide_false, if_true, if_false, List.length_cons,
            Bool.false_eq_true]
          refine ⟨by omega, ?_⟩
          rw [← ih.2]
          exact ⟨fun h => ⟨hj, by omega⟩, fun h => by omega⟩
        · have a1 : IsNodesFile p := ⟨hj, ho⟩
          have a2 : ¬ IsOrganizationsFile p := fun h => ho h.2
          simp only [a1, a2, decide_true, decide_false, if_true, if_false, List.length_cons,
            Bool.false_eq_true]
          refine ⟨by omega, ?_⟩
          rw [← ih.2]
          exact ⟨fun h => ⟨hj, by omega⟩, fun h => by omega⟩
      · have a1 : ¬ IsNodesFile p := fun h => hj h.1
        have a2 : ¬ IsOrganizationsFile p := fun h => hj h.1
        simp only [a1, a2, decide_false, if_false, Bool.false_eq_true]
        exact ⟨by omega, fun h => by omega, fun h => absurd h.1 hj⟩
  obtain ⟨h3, h4⟩ := hcount paths
  simp only
  split
  · rename_i hlt
    simp only [true_iff]
    by_contra hc
    rw [not_or, not_not, not_exists] at hc
    have h5 := h4.2 (fun p hp => by
      by_contra h
      exact hc.1 p ⟨hp, h⟩)
    have h6 := h2.2 hc.2
    omega
  · rename_i hlt
    simp only [reduceCtorEq, false_iff, not_or, not_not, not_exists]
    have h5 := h4.1 (by omega)
    exact ⟨fun p hp => hp.2 (h5 p hp.1), h2.1 (by omega)⟩

open Classical in
/-- C57: If `extract_inputs` succeeds, there is one input per file with nodes, in the same order; it is
combined with the file with organizations that has the same label, if there is one. -/
theorem C57_extract (paths : List Path) (ignore : Text) (inputs : List Input)
    (h : extractInputs paths ignore = some inputs) :
    inputs.map Input.nodesPath = paths.filter (fun p => decide (IsNodesFile p)) ∧
      ∀ i ∈ inputs, i.label = extractLabel i.nodesPath ignore ∧
        ∀ p, i.organizationsPath = some p ↔
          p ∈ paths ∧ IsOrganizationsFile p ∧ extractLabel p ignore = i.label := by
  have hnd : ((paths.filter (fun p => decide (IsOrganizationsFile p))).map
      (fun p => extractLabel p ignore)).Nodup := by
    by_contra hc
    have := (C57_extract_error paths ignore).2 (.inr hc)
    rw [this] at h; cases h
  have h' : buildInputs (extractNodesPaths paths)
      (extractOrganizationsPathsByLabel paths ignore) ignore = inputs := by
    unfold extractInputs at h
    simp only at h
    split at h
    · cases h
    · exact Option.some.inj h
  subst h'
  unfold buildInputs
  constructor
  · rw [List.map_map, ← extractNodesPaths_eq]
    exact List.map_id _
  · intro i hi
    obtain ⟨n, hn, rfl⟩ := List.mem_map.1 hi
    refine ⟨rfl, fun p => ?_⟩
    dsimp only
    unfold extractOrganizationsPathsByLabel
    rw [organizationsFiles_eq, Map.get?_collect (by
      rw [List.map_map]; exact hnd)]
    rw [List.mem_map]
    constructor
    · rintro ⟨p', hp', h⟩
      obtain ⟨h6, rfl⟩ := Prod.mk.inj h
      rw [List.mem_filter, decide_eq_true_iff] at hp'
      exact ⟨hp'.1, hp'.2, h6⟩
    · rintro ⟨h6, h7, h8⟩
      exact ⟨p, List.mem_filter.2 ⟨h6, decide_eq_true h7⟩, by rw [h8]⟩

/-- C57: A file with nodes and the corresponding file with organizations have the same label, wherever
the words `nodes` and `organizations` are placed; the word `nodes` can be omitted. -/
theorem C57_labels (d d' a b ignore : Text) :
    let label := fun d s => extractLabel ⟨d, s ++ ".json".toList⟩ ignore
    label d (a ++ "_nodes_".toList ++ b) = label d' (a ++ "_organizations_".toList ++ b) ∧
      label d (a ++ "_".toList ++ b) = label d' (a ++ "_organizations_".toList ++ b) ∧
      label d ("nodes_".toList ++ b) = label d' ("organizations_".toList ++ b) ∧
      label d b = label d' ("organizations_".toList ++ b) ∧
      label d (a ++ "_nodes".toList) = label d' (a ++ "_organizations".toList) := by
  intro label
  have hn : Ignored "nodes".toList := .inl rfl
  have ho : Ignored "organizations".toList := .inr rfl
  have hp : ".json".toList ≠ [] := by decide
  have hs : '_' ∉ ".json".toList := by decide
  have mid : ∀ {w : Text}, Ignored w → ∀ d,
      label d (a ++ ('_' :: w ++ ['_']) ++ b) = label d (a ++ ['_'] ++ b) := by
    intro w hw d
    have e1 : a ++ ('_' :: w ++ ['_']) ++ b ++ ".json".toList =
        a ++ '_' :: (w ++ '_' :: (b ++ ".json".toList)) := by simp
    have e2 : a ++ ['_'] ++ b ++ ".json".toList = a ++ '_' :: (b ++ ".json".toList) := by simp
    simp only [label]
    rw [e1, e2, extractLabel_eq, extractLabel_eq, Text.remove_append hp hs,
      Text.remove_append hp hs, Text.remove_append hp hs, (hw.facts ignore).1,
      labelParts_middle hw]
  have first : ∀ {w : Text}, Ignored w → ∀ d, label d ((w ++ ['_']) ++ b) = label d b := by
    intro w hw d
    have e1 : (w ++ ['_']) ++ b ++ ".json".toList = w ++ '_' :: (b ++ ".json".toList) := by simp
    simp only [label]
    rw [e1, extractLabel_eq, extractLabel_eq, Text.remove_append hp hs, (hw.facts ignore).1,
      labelParts_first hw]
  have last : ∀ {w : Text}, Ignored w → ∀ d, label d (a ++ ('_' :: w)) =
      Text.join ['_'] ((Text.split '_' (Text.remove ".json".toList a)).filter
        (fun s => !["nodes".toList, "organizations".toList, ignore].contains s)) := by
    intro w hw d
    have e1 : a ++ ('_' :: w) ++ ".json".toList = a ++ '_' :: (w ++ ".json".toList) := by simp
    simp only [label]
    rw [e1, extractLabel_eq, Text.remove_append hp hs, (hw.facts ignore).2.1, labelParts_last hw]
  have dir : ∀ d d' s, label d s = label d' s := fun d d' s => rfl
  exact ⟨(mid hn d).trans (mid ho d').symm, (mid ho d').symm, (first hn d).trans (first ho d').symm,
    (first ho d').symm, (last hn d).trans (last ho d').symm⟩

/-- Concrete cases (the second one is that of a test in the code). -/
example : extractInputs
    [⟨"x".toList, "a_nodes_2.json".toList⟩, ⟨[], "a_organizations_2.json".toList⟩,
      ⟨[], "b.json".toList⟩] "stellarbeat".toList =
    some [⟨"a_2".toList, ⟨"x".toList, "a_nodes_2.json".toList⟩,
        some ⟨[], "a_organizations_2.json".toList⟩⟩,
      ⟨"b".toList, ⟨[], "b.json".toList⟩, none⟩] := by decide +kernel

example : extractLabel ⟨[], "2020-06-03_stellarbeat_nodes.json".toList⟩ "stellarbeat".toList =
    "2020-06-03".toList := by decide +kernel

/-- Files with organizations with the same label are not recognized. -/
example : extractInputs
    [⟨"x".toList, "organizations.json".toList⟩, ⟨"y".toList, "organizations.json".toList⟩]
    "stellarbeat".toList = none := by decide +kernel

#print axioms C56_almost_ideal
#print axioms C56_same_as_ideal
#print axioms C56_stellarlike
#print axioms C56_panics
#print axioms C56_no_shortcut
#print axioms C56_size_one
#print axioms C57_tasklist
#print axioms C57_analyzer
#print axioms C57_performance
#print axioms C57_extract_error
#print axioms C57_extract
#print axioms C57_labels

end FA.Props
