import Verif.Lemmas.SimulatorFame
import Verif.SpecSimulator
import Verif.Props.Threshold
import Verif.Ref.Decide
import Verif.Ref.Json

/-!
# C71: what `qsc_simulator` prints
-/

namespace FA.Props
open FA Spec Simulator

variable {R : Rand}

/-! ### Helpers -/

theorem names_length {f : Fbas} {n : ℕ}
    (h : f.nodes.map Node.publicKey = (List.range n).map (fun i => "n" ++ toString i)) :
    f.nodes.length = n := by
  have := congrArg List.length h
  simpa using this

theorem hasQSet_lt {f : Fbas} {x : NodeId} {q : QuorumSet} (h : HasQSet f x q) :
    x < f.nodes.length := by
  obtain ⟨node, hn, -⟩ := h
  exact (List.getElem?_eq_some_iff.1 hn).1

theorem connected_iff {g : Graph} {x : NodeId} : x ∈ g.getConnectedNodes ↔ Connected g x :=
  mem_getConnectedNodes

theorem main_eq {rnd : ℚ → ℚ} {args : QscSimulator.Cli} {qsc : Qsc R} {m : ℕ}
    (hp : QscSimulator.parseQscConfig R rnd args.qscConfig = .ok (qsc, m)) (s : R.State) :
    ∃ i g, i + g = wantedSize args m ∧
      (∀ f, QscSimulator.simulate qsc i g s = .ok f →
        QscSimulator.main R rnd args s = .ok f.toJson) ∧
      ∀ e, QscSimulator.simulate qsc i g s = .error e → QscSimulator.main R rnd args s = .error e := by
  refine ⟨if args.initialN > 0 ∨ args.growByN > 0 then args.initialN else m, args.growByN, ?_,
    fun f h => ?_, fun e h => ?_⟩
  · unfold wantedSize
    split <;> split <;> omega
  · unfold QscSimulator.main
    rw [hp]
    dsimp only
    rw [h]
  · unfold QscSimulator.main
    rw [hp]
    dsimp only
    rw [h]

theorem wantedSize_zero (args : QscSimulator.Cli) :
    wantedSize args 0 = args.initialN + args.growByN := by
  unfold wantedSize
  split
  · rename_i h; rw [h.1, h.2]
  · rfl

theorem prints_of_steady {rnd : ℚ → ℚ} {args : QscSimulator.Cli} {qsc : Qsc R} {m N : ℕ}
    {A B : ℕ → NodeId → QuorumSet → Prop} {P : NodeId → QuorumSet → Prop}
    (hp : QscSimulator.parseQscConfig R rnd args.qscConfig = .ok (qsc, m))
    (hs : Steady qsc N A B) (hN : wantedSize args m ≤ N)
    (hP : ∀ x q, x < wantedSize args m → A (wantedSize args m) x q → P x q) (s : R.State) :
    Prints (QscSimulator.main R rnd args s) (wantedSize args m) P := by
  obtain ⟨i, g, h1, h2, -⟩ := main_eq hp s
  obtain ⟨f, h3, -, h4, h5⟩ := hs.simulate i g (by rw [h1]; exact hN) s
  rw [h1] at h4 h5
  refine ⟨f, h2 f h3, h4, fun x q hq => hP x q ?_ (h5 x q hq)⟩
  rw [← names_length h4]; exact hasQSet_lt hq

theorem withGraph_ok {t : Text} {g : Graph} {mk : Graph → Except Panic (Qsc R)} {qsc : Qsc R}
    (hg : Graph.fromAsRelString t = .ok g) (hmk : mk g = .ok qsc) :
    QscSimulator.withGraph t mk = .ok (qsc, g.outlinks.length) := by
  unfold QscSimulator.withGraph QscSimulator.parseGraph
  rw [hg]
  dsimp only
  rw [hmk]

theorem sorted_row {g : Graph} (h : ∀ l ∈ g.outlinks, l.Pairwise (· < ·)) (x : NodeId) :
    (g.outlinks.getD x []).Nodup := by
  rw [List.getD_eq_getElem?_getD]
  cases hx : g.outlinks[x]? with
  | none => exact List.nodup_nil
  | some l => exact (h l (List.mem_of_getElem? hx)).imp (fun h => Nat.ne_of_lt h)

theorem pairwise_lt_of {l : List ℕ} (h : l.Pairwise (· ≤ ·)) (hn : l.Nodup) : l.Pairwise (· < ·) :=
  (h.and hn).imp (fun h => Nat.lt_of_le_of_ne h.1 h.2)

/-! ### All policies -/

/-- C71: a policy with an unreadable graph file makes the tool panic. -/
theorem C71_unreadable_graph (R : Rand) (rnd : ℚ → ℚ) (args : QscSimulator.Cli) (s : R.State)
    (t : Text) (ht : graphData args.qscConfig = some t) (e : Panic)
    (he : Graph.fromAsRelString t = .error e) : QscSimulator.main R rnd args s = .error e := by
  have hw : ∀ mk : Graph → Except Panic (Qsc R), QscSimulator.withGraph t mk = .error e := by
    intro mk
    unfold QscSimulator.withGraph QscSimulator.parseGraph
    rw [he]
  have hp : QscSimulator.parseQscConfig R rnd args.qscConfig = .error e := by
    obtain ⟨i, g, config⟩ := args
    cases config <;> first
      | (cases ht; done)
      | (obtain rfl := Option.some.inj ht; dsimp only [QscSimulator.parseQscConfig]; exact hw _)
  unfold QscSimulator.main
  rw [hp]

/-- C71: whatever the policy, a printed document is the one of an FBAS with the wanted number of nodes:
the numbers of the command line if any of them is positive; otherwise the number of nodes of the graph,
or no nodes if the policy has no graph. -/
theorem C71_size (R : Rand) (rnd : ℚ → ℚ) (args : QscSimulator.Cli) (s : R.State) (doc : Json)
    (h : QscSimulator.main R rnd args s = .ok doc) :
    ∃ (f : Fbas) (m : ℕ), doc = f.toJson ∧ RegistryOk f ∧
      (graphData args.qscConfig = none → m = 0) ∧
      (∀ t, graphData args.qscConfig = some t →
        ∃ g, Graph.fromAsRelString t = .ok g ∧ m = g.outlinks.length) ∧
      f.nodes.map Node.publicKey =
        (List.range (wantedSize args m)).map (fun i => "n" ++ toString i) := by
  cases hp : QscSimulator.parseQscConfig R rnd args.qscConfig with
  | error e => unfold QscSimulator.main at h; rw [hp] at h; cases h
  | ok p =>
    obtain ⟨qsc, m⟩ := p
    obtain ⟨i, g, h1, h2, h3⟩ := main_eq hp s
    cases hs : QscSimulator.simulate qsc i g s with
    | error e => rw [h3 e hs] at h; cases h
    | ok f =>
      rw [h2 f hs] at h
      obtain ⟨h4, h5⟩ := (keeps_config hp).simulate hs
      rw [h1] at h5
      refine ⟨f, m, (Except.ok.inj h).symm, h4, ?_, ?_, h5⟩
      · obtain ⟨i, g, config⟩ := args
        intro hd
        cases config <;> first
          | (cases hd; done)
          | exact (Prod.mk.inj (Except.ok.inj hp)).2.symm
      · intro t ht
        have hw : ∀ mk : Graph → Except Panic (Qsc R), QscSimulator.withGraph t mk = .ok (qsc, m) →
            ∃ g, Graph.fromAsRelString t = .ok g ∧ m = g.outlinks.length := by
          intro mk hmk
          unfold QscSimulator.withGraph QscSimulator.parseGraph at hmk
          cases hg : Graph.fromAsRelString t with
          | error e => rw [hg] at hmk; cases hmk
          | ok g =>
            rw [hg] at hmk
            dsimp only at hmk
            split at hmk
            · cases hmk
            · exact ⟨g, rfl, (Prod.mk.inj (Except.ok.inj hmk)).2.symm⟩
        obtain ⟨i, g, config⟩ := args
        cases config <;> first
          | (cases ht; done)
          | (obtain rfl := Option.some.inj ht; dsimp only [QscSimulator.parseQscConfig] at hp; exact hw _ hp)

/-- C71: whatever the policy, the analyzer reads the printed document as an FBAS with the same node names
and the same quorums, if all thresholds fit into 64 bits. -/
theorem C71_read_back (R : Rand) (rnd : ℚ → ℚ) (args : QscSimulator.Cli) (s : R.State) (doc : Json)
    (h : QscSimulator.main R rnd args s = .ok doc) :
    ∃ f : Fbas, doc = f.toJson ∧ ((∀ v ∈ f.nodes, FitsQ v.quorumSet) →
      ∃ f', Fbas.fromJson doc = .ok f' ∧
        f'.nodes.map Node.publicKey = f.nodes.map Node.publicKey ∧
        ∀ Q, IsQuorum f' Q ↔ IsQuorum f Q) := by
  obtain ⟨f, m, rfl, -, -, -, hn⟩ := C71_size R rnd args s doc h
  refine ⟨f, rfl, fun hfits => ?_⟩
  obtain ⟨h1, h2⟩ := generic_read_back hn
  exact ⟨_, C63_save_load f hfits, h1, h2⟩

/-! ### Policies without graphs -/

/-- C71: with `Ideal`, all nodes get the quorum set with all nodes and a threshold of more than two
thirds. -/
theorem C71_ideal (R : Rand) (rnd : ℚ → ℚ) (i g : ℕ) (s : R.State) :
    Prints (QscSimulator.main R rnd ⟨i, g, .ideal⟩ s) (i + g)
      (fun _ q => FlatOver none (· < i + g) q) := by
  have hz : wantedSize ⟨i, g, .ideal⟩ 0 = i + g := wantedSize_zero _
  rw [← hz]
  refine prints_of_steady (qsc := Qsc.ideal R) rfl (steady_targets
    (cand := fun n => ⟨Qsc.calculate67pThreshold n, rangeFT 0 n, []⟩) (fun _ _ => rfl) _)
    (Nat.le_refl _) (fun x q _ hq => ?_) s
  rw [hz] at hq ⊢
  refine ⟨_, _, hq, ?_, fun y => by simp, ?_⟩
  · rw [rangeFT_zero]; exact List.pairwise_lt_range
  · have := C81_threshold (i + g) none
    rw [rangeFT_zero, List.length_range]; exact this

/-- C71: with `SuperSafe`, all nodes require all nodes. -/
theorem C71_super_safe (R : Rand) (rnd : ℚ → ℚ) (i g : ℕ) (s : R.State) :
    Prints (QscSimulator.main R rnd ⟨i, g, .superSafe⟩ s) (i + g)
      (fun _ q => q = ⟨i + g, List.range (i + g), []⟩) := by
  have hz : wantedSize ⟨i, g, .superSafe⟩ 0 = i + g := wantedSize_zero _
  rw [← hz]
  refine prints_of_steady (qsc := Qsc.superSafe R) rfl (steady_targets
    (cand := fun n => ⟨n, rangeFT 0 n, []⟩) (fun _ _ => rfl) _)
    (Nat.le_refl _) (fun x q _ hq => ?_) s
  rw [hz] at hq ⊢
  rw [hq, rangeFT_zero]

theorem wanted_random {size n : ℕ} {t : Option ℕ} {x : NodeId} {q : QuorumSet}
    (h : RandomTarget size t n x q) :
    ∃ t' vs, q = ⟨t', vs, []⟩ ∧ vs.Nodup ∧ x ∈ vs ∧ (∀ v ∈ vs, v < n) ∧
      vs.length = min size n ∧ (t = none → ThresholdFor none vs.length t') ∧
      ∀ u, t = some u → t' = u := by
  obtain ⟨vs, rfl, h1, h2, h3, h4⟩ := h
  refine ⟨_, vs, rfl, h1, h2, h3, h4, ?_, ?_⟩
  · rintro rfl
    rw [h4]; exact C81_threshold (min size n) none
  · rintro u rfl; rfl

/-- C71: with `Random` and a size of at least 2, every node gets a quorum set of `min size n` different
nodes that includes the node itself, also the nodes that were configured while the FBAS was smaller; the
threshold is more than two thirds. -/
theorem C71_random_partial (R : Rand) (rnd : ℚ → ℚ) (i g size : ℕ) (hsize : 2 ≤ size) (s : R.State) :
    Prints (QscSimulator.main R rnd ⟨i, g, .random size⟩ s) (i + g)
      (fun x q => ∃ t vs, q = ⟨t, vs, []⟩ ∧ vs.Nodup ∧ x ∈ vs ∧ (∀ v ∈ vs, v < i + g) ∧
        vs.length = min size (i + g) ∧ ThresholdFor none vs.length t) := by
  have hz : wantedSize ⟨i, g, .random size⟩ 0 = i + g := wantedSize_zero _
  rw [← hz]
  refine prints_of_steady (qsc := Qsc.random R size none []) rfl
    (steady_random R (fun y => by simp) hsize _) (Nat.le_refl _) (fun x q _ hq => ?_) s
  obtain ⟨t, vs, h1, h2, h3, h4, h5, h6, -⟩ := wanted_random hq
  exact ⟨t, vs, h1, h2, h3, h4, h5, h6 rfl⟩

/-- C71: a size of 0 or 1 leads to unsatisfiable quorum sets, so that there are no quorums. -/
theorem C71_random_small (R : Rand) (rnd : ℚ → ℚ) (i g size : ℕ) (hsize : size ≤ 1) (s : R.State) :
    Prints (QscSimulator.main R rnd ⟨i, g, .random size⟩ s) (i + g)
      (fun x q => q = ⟨0, [x], []⟩) := by
  have hz : wantedSize ⟨i, g, .random size⟩ 0 = i + g := wantedSize_zero _
  rw [← hz]
  exact prints_of_steady (qsc := Qsc.random R size none []) rfl
    (steady_random_small R none [] hsize _) (Nat.le_refl _) (fun x q _ hq => hq) s

/-! ### Policies with graphs -/

theorem main_simulates {rnd : ℚ → ℚ} {args : QscSimulator.Cli} {qsc : Qsc R} {m : ℕ}
    (hp : QscSimulator.parseQscConfig R rnd args.qscConfig = .ok (qsc, m)) (s : R.State) :
    initialSize args m + args.growByN = wantedSize args m ∧
      QscSimulator.main R rnd args s =
        (QscSimulator.simulate qsc (initialSize args m) args.growByN s).map Fbas.toJson := by
  have hi : (if args.initialN > 0 ∨ args.growByN > 0 then args.initialN else m) =
      initialSize args m := by
    unfold initialSize
    split <;> split <;> first | rfl | omega
  refine ⟨by unfold initialSize wantedSize; split <;> omega, ?_⟩
  unfold QscSimulator.main
  rw [hp]
  dsimp only
  rw [hi]
  cases QscSimulator.simulate qsc (initialSize args m) args.growByN s <;> rfl

theorem fame_config {rnd : ℚ → ℚ} {size : ℕ} {t : Text} {th : Option ℕ} {G : Graph}
    (hG : Graph.fromAsRelString t = .ok G) :
    ∃ ds, QscSimulator.parseQscConfig R rnd (.fameWeightedRandom size t th) =
        .ok (Qsc.random R size th ds, G.outlinks.length) ∧
      (∀ m, EnoughWeight size m ds ↔ EnoughTargets G size m) ∧
      ∀ y < G.outlinks.length, 0 < ds.getD y 1 ↔ 1 ≤ linksInto G y := by
  obtain ⟨ds, h1, h2, h3⟩ := C52_in_degrees G (fromAsRel_spec hG).1
  refine ⟨ds, by dsimp only [QscSimulator.parseQscConfig]; exact withGraph_ok hG (by rw [h1]),
    fun m => forall_congr' (fun x => forall_congr' (fun _ => ?_)), fun y hy => by
      rw [List.getD_eq_getElem?_getD, h3 y hy]; rfl⟩
  have hset : {y : ℕ | y < m ∧ y ≠ x ∧ (y < G.outlinks.length → 1 ≤ linksInto G y)} =
      ↑(choosable m ds [x]) := by
    ext y
    rw [Set.mem_ofPred_eq, Finset.mem_coe, mem_choosable, List.mem_singleton]
    refine and_congr Iff.rfl (and_congr Iff.rfl ?_)
    rw [List.getD_eq_getElem?_getD]
    by_cases hy : y < G.outlinks.length
    · rw [h3 y hy]
      exact ⟨fun h => h hy, fun h _ => h⟩
    · rw [List.getElem?_eq_none (by rw [h2]; exact Nat.le_of_not_lt hy)]
      exact ⟨fun _ => Nat.one_pos, fun _ h => absurd h hy⟩
  rw [hset, Set.ncard_coe_finset]

/-- C71: with `FameWeightedRandom` and a size of at least 2, the same, and only targets of links are
chosen; a given threshold is used as is. The tool panics exactly if there are not enough targets of links
among the first nodes, whatever the random choices are. -/
theorem C71_fame (R : Rand) (rnd : ℚ → ℚ) (i g size : ℕ) (t : Text) (th : Option ℕ) (G : Graph)
    (hG : Graph.fromAsRelString t = .ok G) (hsize : 2 ≤ size) (s : R.State) :
    let args : QscSimulator.Cli := ⟨i, g, .fameWeightedRandom size t th⟩
    let n := wantedSize args G.outlinks.length
    let enough := EnoughTargets G size (max (initialSize args G.outlinks.length) (min size n))
    (enough → Prints (QscSimulator.main R rnd args s) n
      (fun x q => ∃ t' vs, q = ⟨t', vs, []⟩ ∧ vs.Nodup ∧ x ∈ vs ∧ (∀ v ∈ vs, v < n) ∧
        vs.length = min size n ∧ (th = none → ThresholdFor none vs.length t') ∧
        (∀ u, th = some u → t' = u) ∧
        ∀ v ∈ vs, v = x ∨ (v < G.outlinks.length → 1 ≤ linksInto G v))) ∧
    ((∃ e, QscSimulator.main R rnd args s = .error e) ↔ ¬ enough) := by
  intro args n enough
  obtain ⟨ds, hp, hw, hds⟩ := fame_config (R := R) (rnd := rnd) (size := size) (th := th) hG
  obtain ⟨h1, h2⟩ := main_simulates (args := args) hp s
  have hpos : enough → Prints (QscSimulator.main R rnd args s) n
      (fun x q => ∃ t' vs, q = ⟨t', vs, []⟩ ∧ vs.Nodup ∧ x ∈ vs ∧ (∀ v ∈ vs, v < n) ∧
        vs.length = min size n ∧ (th = none → ThresholdFor none vs.length t') ∧
        (∀ u, th = some u → t' = u) ∧
        ∀ v ∈ vs, v = x ∨ (v < G.outlinks.length → 1 ≤ linksInto G v)) := by
    intro he
    obtain ⟨f, h3, -, h4, h5⟩ := (steady_weighted R (t := th) ((hw _).2 he) hsize).simulate
      (initialSize args G.outlinks.length) g (Nat.le_of_eq h1) s (Nat.le_refl _)
    change initialSize args G.outlinks.length + g = n at h1
    rw [h1] at h4 h5
    refine ⟨f, ?_, h4, fun x q hq => ?_⟩
    · rw [h2]
      change Except.map _ (QscSimulator.simulate _ _ g s) = _
      rw [h3]; rfl
    · obtain ⟨-, h6, h7⟩ := h5 x q hq
      obtain ⟨t', vs, rfl, h8⟩ := wanted_random h6
      exact ⟨t', vs, rfl, h8.1, h8.2.1, h8.2.2.1, h8.2.2.2.1, h8.2.2.2.2.1, h8.2.2.2.2.2,
        fun v hv => (h7 v hv).imp id (fun h hG => (hds v hG).1 h)⟩
  refine ⟨hpos, fun ⟨e, he⟩ hen => ?_, fun hen => ?_⟩
  · obtain ⟨f, h3, -⟩ := hpos hen
    rw [he] at h3; cases h3
  · replace hen := mt (hw _).1 hen
    change initialSize args G.outlinks.length + g = n at h1
    obtain ⟨e, he⟩ := weighted_error (R := R) (t := th) (s := s)
      (i := initialSize args G.outlinks.length) (g := g) hsize (by rw [h1]; exact hen)
    refine ⟨e, ?_⟩
    rw [h2]
    change Except.map _ (QscSimulator.simulate _ _ g s) = _
    rw [he]; rfl

/-- C71: a size of 0 or 1 leads to unsatisfiable quorum sets, even if a threshold is given. -/
theorem C71_fame_small (R : Rand) (rnd : ℚ → ℚ) (i g size : ℕ) (t : Text) (th : Option ℕ) (G : Graph)
    (hG : Graph.fromAsRelString t = .ok G) (hsize : size ≤ 1) (s : R.State) :
    Prints (QscSimulator.main R rnd ⟨i, g, .fameWeightedRandom size t th⟩ s)
      (wantedSize ⟨i, g, .fameWeightedRandom size t th⟩ G.outlinks.length)
      (fun x q => q = ⟨0, [x], []⟩) := by
  obtain ⟨ds, hp, -⟩ := fame_config (R := R) (rnd := rnd) (size := size) (th := th) hG
  exact prints_of_steady hp (steady_random_small R th ds hsize _) (Nat.le_refl _)
    (fun x q _ hq => hq) s

/-- C71: with `AllNeighbors`, the nodes of the graph that have links, or are linked, get the quorum set
with themselves and all linked nodes; all other nodes stay without configuration. -/
theorem C71_all_neighbors (R : Rand) (rnd : ℚ → ℚ) (i g : ℕ) (t : Text) (rel : Option ℚ) (G : Graph)
    (hG : Graph.fromAsRelString t = .ok G) (s : R.State) :
    Prints (QscSimulator.main R rnd ⟨i, g, .allNeighbors t rel⟩ s)
      (wantedSize ⟨i, g, .allNeighbors t rel⟩ G.outlinks.length)
      (fun x q => (Connected G x → FlatOver rel (fun y => y = x ∨ Link G x y) q) ∧
        (¬ Connected G x → q = ⟨0, [], []⟩)) := by
  obtain ⟨hr, hso⟩ := fromAsRel_spec hG
  refine prints_of_steady (qsc := Qsc.allNeighbors R G rel) 
    (by dsimp only [QscSimulator.parseQscConfig]; exact withGraph_ok hG rfl)
    (steady_oneShot (neighbors_oneShot_all R hr rel _)) (Nat.le_refl _) (fun x q _ hq => ?_) s
  subst hq
  unfold neighborsTarget
  rw [← connected_iff]
  refine ⟨fun hc => ?_, fun hc => by rw [if_neg hc]; rfl⟩
  rw [if_pos hc]
  refine ⟨_, _, rfl, pairwise_lt_of (sortIds_pairwise _) ?_, fun y => ?_, C81_threshold _ _⟩
  · rw [(sortIds_perm _).nodup_iff]
    split
    · exact sorted_row hso x
    · rename_i hx
      exact List.nodup_append'.2 ⟨sorted_row hso x, by simp, by simpa using hx⟩
  · rw [mem_sortIds]
    show _ ↔ y = x ∨ Link G x y
    rw [link_iff]
    split
    · rename_i hx
      exact ⟨.inr, fun h => h.elim (fun h => h ▸ hx) id⟩
    · rw [List.mem_append, List.mem_singleton, or_comm]

/-- C71: with `HigherTierNeighbors`, only the preferred ones of the linked nodes are used. -/
theorem C71_higher_tier (R : Rand) (rnd : ℚ → ℚ) (i g : ℕ) (t : Text) (rel : Option ℚ) (G : Graph)
    (hG : Graph.fromAsRelString t = .ok G) (s : R.State) :
    ∃ sc, G.getRankScores rnd = .ok sc ∧ sc.length = G.outlinks.length ∧
      Prints (QscSimulator.main R rnd ⟨i, g, .higherTierNeighbors t rel⟩ s)
        (wantedSize ⟨i, g, .higherTierNeighbors t rel⟩ G.outlinks.length)
        (fun x q =>
          (Connected G x → FlatOver rel (fun y => y = x ∨ Preferred G (fun v => sc.getD v 0) x y) q) ∧
          (¬ Connected G x → q = ⟨0, [], []⟩)) := by
  obtain ⟨hr, hso⟩ := fromAsRel_spec hG
  obtain ⟨h1, h2⟩ := C66_panics_iff rnd G
  cases hsc : G.getRankScores rnd with
  | error e => exact absurd hr (h1.1 ⟨e, hsc⟩)
  | ok sc =>
    refine ⟨sc, rfl, h2 sc hsc, ?_⟩
    refine prints_of_steady (qsc := Qsc.higherTierNeighbors R G sc rel false) 
      (by dsimp only [QscSimulator.parseQscConfig]; exact withGraph_ok hG (by unfold QscSimulator.newHigherTier; rw [hsc]))
      (steady_oneShot (tier_oneShot_all R hr (h2 sc hsc) rel _)) (Nat.le_refl _)
      (fun x q _ hq => ?_) s
    · subst hq
      unfold tierTarget
      rw [← connected_iff]
      refine ⟨fun hc => ?_, fun hc => by rw [if_neg hc]; rfl⟩
      rw [if_pos hc]
      refine ⟨_, _, rfl, pairwise_lt_of (sortIds_pairwise _)
        (nodup_tierValidators (.inr (sorted_row hso x))), fun y => mem_tierValidators (sym := false),
        C81_threshold _ _⟩

/-- C71: with `SymmetryEnforcingHigherTierNeighbors`, a quorum set contains the node itself and all
preferred nodes, and otherwise only nodes that are reached from it via preferred nodes. -/
theorem C71_symmetric_partial (R : Rand) (rnd : ℚ → ℚ) (i g : ℕ) (t : Text) (rel : Option ℚ) (G : Graph)
    (hG : Graph.fromAsRelString t = .ok G) (s : R.State) :
    ∃ sc, G.getRankScores rnd = .ok sc ∧ sc.length = G.outlinks.length ∧
      Prints (QscSimulator.main R rnd ⟨i, g, .symmetryEnforcingHigherTierNeighbors t rel⟩ s)
        (wantedSize ⟨i, g, .symmetryEnforcingHigherTierNeighbors t rel⟩ G.outlinks.length)
        (fun x q =>
          (Connected G x → ∃ S : NodeId → Prop, FlatOver rel S q ∧ S x ∧
            (∀ y, Preferred G (fun v => sc.getD v 0) x y → S y) ∧
            ∀ y, S y → Relation.ReflTransGen (Preferred G (fun v => sc.getD v 0)) x y) ∧
          (¬ Connected G x → q = ⟨0, [], []⟩)) := by
  obtain ⟨hr, hso⟩ := fromAsRel_spec hG
  obtain ⟨h1, h2⟩ := C66_panics_iff rnd G
  cases hsc : G.getRankScores rnd with
  | error e => exact absurd hr (h1.1 ⟨e, hsc⟩)
  | ok sc =>
    refine ⟨sc, rfl, h2 sc hsc, ?_⟩
    refine prints_of_steady (qsc := Qsc.higherTierNeighbors R G sc rel true) 
      (by dsimp only [QscSimulator.parseQscConfig]; exact withGraph_ok hG (by unfold QscSimulator.newHigherTier; rw [hsc]))
      (steady_symmetric R hr (h2 sc hsc) rel _) (Nat.le_refl _) (fun x q _ hq => ?_) s
    · unfold SymTarget at hq
      rw [← connected_iff]
      refine ⟨fun hc => ?_, fun hc => by rwa [if_neg hc] at hq⟩
      rw [if_pos hc] at hq
      obtain ⟨vs, rfl, g1, g2, g3, g4⟩ := hq
      exact ⟨(· ∈ vs), ⟨_, vs, rfl, g1, fun _ => Iff.rfl, C81_threshold _ _⟩, g2, g3, g4⟩

/-- C71: with `GlobalRank` and not more nodes than the graph has, every node with links gets the quorum
set of the nodes with above-average score. -/
theorem C71_global_rank (R : Rand) (rnd : ℚ → ℚ) (i g : ℕ) (t : Text) (rel : Option ℚ) (G : Graph)
    (hG : Graph.fromAsRelString t = .ok G)
    (hn : wantedSize ⟨i, g, .globalRank t rel⟩ G.outlinks.length ≤ G.outlinks.length)
    (s : R.State) :
    ∃ sc, G.getRankScores rnd = .ok sc ∧ sc.length = G.outlinks.length ∧
      Prints (QscSimulator.main R rnd ⟨i, g, .globalRank t rel⟩ s)
        (wantedSize ⟨i, g, .globalRank t rel⟩ G.outlinks.length)
        (fun x q =>
          ((∃ y, Link G x y) → FlatOver rel (fun y => y < G.outlinks.length ∧
            rnd (sc.foldl (fun a b => rnd (a + b)) 0 / G.outlinks.length) < sc.getD y 0) q) ∧
          ((¬ ∃ y, Link G x y) → q = ⟨0, [], []⟩)) := by
  obtain ⟨hr, hso⟩ := fromAsRel_spec hG
  obtain ⟨h1, h2⟩ := C66_panics_iff rnd G
  cases hsc : G.getRankScores rnd with
  | error e => exact absurd hr (h1.1 ⟨e, hsc⟩)
  | ok sc =>
    refine ⟨sc, rfl, h2 sc hsc, ?_⟩
    obtain ⟨T, hT, -, hTs, -⟩ := topTierNodes_ok rnd hr
    have hTm : ∀ y, y ∈ T ↔ y < G.outlinks.length ∧
        rnd (sc.foldl (fun a b => rnd (a + b)) 0 / G.outlinks.length) < sc.getD y 0 := by
      unfold Qsc.topTierNodes at hT
      dsimp only at hT
      rw [hsc] at hT
      dsimp only at hT
      split at hT
      · cases hT
      · intro y
        rw [← Except.ok.inj hT, List.mem_filter, mem_rangeFT, decide_eq_true_eq]
        simp
    refine prints_of_steady (qsc := Qsc.globalRank R G T rel) 
      (by dsimp only [QscSimulator.parseQscConfig]; exact withGraph_ok hG (by unfold QscSimulator.newGlobalRank; rw [hT]))
      (steady_oneShot (rank_oneShot R G T rel)) hn (fun x q _ hq => ?_) s
    · have hlink : (∃ y, Link G x y) ↔ G.outlinks.getD x [] ≠ [] := by
        rw [ne_nil_iff]
        simp only [link_iff]
      subst hq
      unfold rankTarget
      rw [hlink]
      refine ⟨fun hc => ?_, fun hc => by rw [if_neg hc]; rfl⟩
      rw [if_pos hc]
      exact ⟨_, T, rfl, hTs, hTm, C81_threshold _ _⟩

/-- C71: `GlobalRank` panics if there are more nodes than the graph has. -/
theorem C71_global_rank_panics (R : Rand) (rnd : ℚ → ℚ) (i g : ℕ) (t : Text) (rel : Option ℚ)
    (G : Graph) (hG : Graph.fromAsRelString t = .ok G)
    (hn : G.outlinks.length < wantedSize ⟨i, g, .globalRank t rel⟩ G.outlinks.length)
    (s : R.State) : ∃ e, QscSimulator.main R rnd ⟨i, g, .globalRank t rel⟩ s = .error e := by
  obtain ⟨T, hT, -⟩ := topTierNodes_ok rnd (fromAsRel_spec hG).1
  obtain ⟨i', g', h1, -, h3⟩ := main_eq (rnd := rnd) (args := ⟨i, g, .globalRank t rel⟩)
    (qsc := Qsc.globalRank R G T rel) (by
      dsimp only [QscSimulator.parseQscConfig]
      exact withGraph_ok hG (by unfold QscSimulator.newGlobalRank; rw [hT])) s
  obtain ⟨e, he⟩ := (trips_globalRank R T rel (Nat.le_refl G.outlinks.length)).simulate
    (keeps_globalRank G T rel) i' g' s (by rw [h1]; exact hn)
  exact ⟨e, h3 e he⟩

/-! ### What the analyzer makes of it -/

theorem flat_read_back {f : Fbas} {n t : ℕ} (ht : t < 2 ^ 64)
    (hn : f.nodes.map Node.publicKey = (List.range n).map (fun i => "n" ++ toString i))
    (h : ∀ x q, HasQSet f x q → q = ⟨t, List.range n, []⟩) :
    ∃ f', Fbas.fromJson f.toJson = .ok f' ∧ f'.nodes.length = n ∧
      AllHave f' ⟨t, List.range f'.nodes.length, []⟩ := by
  have hl := names_length hn
  have hq : ∀ v ∈ f.nodes, v.quorumSet = ⟨t, List.range n, []⟩ := by
    intro v hv
    obtain ⟨x, hx⟩ := List.mem_iff_getElem?.1 hv
    exact h x _ ⟨v, hx, rfl⟩
  have hd : DistinctNames f := by
    unfold DistinctNames
    rw [hn]
    exact List.Nodup.map (fun i j h => genericNodeName_inj h) List.nodup_range
  have hwf : WF f := by
    rintro x y ⟨q, hxq, hy⟩
    rw [h x q hxq] at hy
    cases hy with
    | validator h => rw [hl]; exact List.mem_range.1 h
    | inner h => cases h
  have hs : ∀ v ∈ f.nodes, SortedQSet v.quorumSet := by
    intro v hv
    rw [hq v hv]
    exact .intro _ (List.pairwise_lt_range.imp (fun h => Nat.le_of_lt h)) List.Pairwise.nil
      (fun q hq => by cases hq)
  obtain ⟨h1, -⟩ := C36_save_load f hd hwf hs
  refine ⟨_, C63_save_load f (fun v hv => ?_), by rw [h1, hl], fun x hx => ?_⟩
  · rw [hq v hv]; exact .intro ht (fun q hq => by cases hq)
  · rw [h1] at hx ⊢
    rw [hl]
    exact ⟨f.nodes[x], by rw [h1, List.getElem?_eq_getElem hx], hq _ (List.getElem_mem hx)⟩

/-- C71: the analyzer accepts what is printed for `Ideal` (with fewer than 2^64 nodes), and finds an FBAS
with quorum intersection, whose minimal blocking sets are all sets of `f + 1` nodes for the largest `f`
with `3f + 1 ≤ n`. -/
theorem C71_ideal_analysis (R : Rand) (rnd : ℚ → ℚ) (i g : ℕ) (s : R.State) (hpos : 1 ≤ i + g)
    (hfit : i + g < 2 ^ 64) :
    ∃ doc f, QscSimulator.main R rnd ⟨i, g, .ideal⟩ s = .ok doc ∧ Fbas.fromJson doc = .ok f ∧
      f.nodes.length = i + g ∧ QuorumIntersection f ∧
      ∃ k, (∀ u : ℕ, u ≤ k ↔ 3 * u + 1 ≤ i + g) ∧
        ∀ B : NodeSet, IsMinBlocking f B ↔ (∀ x ∈ B, x < i + g) ∧ B.card = k + 1 := by
  obtain ⟨f, h1, hn, hq⟩ := C71_ideal R rnd i g s
  generalize i + g = n at *
  obtain ⟨t, ht⟩ : ∃ t, t = Qsc.calculate67pThreshold n := ⟨_, rfl⟩
  have hb := C41_bounds n hpos
  rw [← ht] at hb
  obtain ⟨f', h2, h3, h4⟩ := flat_read_back (t := t) (by omega) hn (fun x q hxq => by
    obtain ⟨t', vs, rfl, g1, g2, g3⟩ := hq x q hxq
    have hvs : vs = List.range n :=
      g1.eq_of_mem_iff List.pairwise_lt_range (fun y => (g2 y).trans List.mem_range.symm)
    subst hvs
    have h5 : ThresholdFor none n t := by rw [ht]; exact C81_threshold n none
    rw [List.length_range] at g3
    have h6 : t' = t := Nat.le_antisymm ((g3 t).2 ((h5 t).1 (Nat.le_refl _)))
      ((h5 t').2 ((g3 t').1 (Nat.le_refl _)))
    rw [h6])
  have hmaj : n < 2 * t := by rw [ht]; unfold Qsc.calculate67pThreshold; omega
  refine ⟨_, f', h1, h2, h3, (threshold_intersection h4 hb.1 (by rw [h3]; exact hb.2)).2
    (by rw [h3]; exact hmaj), n - t, fun u => ?_, fun B => ?_⟩
  · rw [ht]; exact C41_faults n hpos u
  · rw [threshold_minBlocking_iff h4 hb.1 (by rw [h3]; exact hb.2), h3]
    simp only [Finset.subset_iff, Finset.mem_range]

/-- C71: the analyzer accepts what is printed for `SuperSafe` (with fewer than 2^64 nodes), and the only
quorum is the set of all nodes. -/
theorem C71_super_safe_analysis (R : Rand) (rnd : ℚ → ℚ) (i g : ℕ) (s : R.State) (hpos : 1 ≤ i + g)
    (hfit : i + g < 2 ^ 64) :
    ∃ doc f, QscSimulator.main R rnd ⟨i, g, .superSafe⟩ s = .ok doc ∧ Fbas.fromJson doc = .ok f ∧
      f.nodes.length = i + g ∧ ∀ Q : NodeSet, IsQuorum f Q ↔ ∀ x, x ∈ Q ↔ x < i + g := by
  obtain ⟨f, h1, hn, hq⟩ := C71_super_safe R rnd i g s
  generalize i + g = n at *
  obtain ⟨f', h2, h3, h4⟩ := flat_read_back hfit hn hq
  refine ⟨_, f', h1, h2, h3, fun Q => ?_⟩
  rw [threshold_quorum_iff h4 hpos, h3]
  constructor
  · rintro ⟨hs, hc⟩
    have := Finset.eq_of_subset_of_card_le hs (by rw [Finset.card_range]; exact hc)
    intro x; rw [this, Finset.mem_range]
  · intro h
    have : Q = Finset.range n := by ext x; rw [h x, Finset.mem_range]
    rw [this]; exact ⟨subset_rfl, by rw [Finset.card_range]⟩

/-! ### Claims of the documentation that do not hold -/

/-- The documentation of `--initial` claims: the default is the size of the graph. With `--grow-by 1` and
a graph with two nodes, there is only the one node by which the FBAS grows. -/
theorem C71_default_size_counterexample :
    QscSimulator.main busyRand id ⟨0, 1, .allNeighbors "0|1|0\n".toList none⟩ (0 : ℕ) =
      .ok (Ref.mkFbas [⟨2, [0, 1], []⟩]).toJson :=
  Ref.doc_of (by decide +kernel)

/-- The documentation of `Ideal` claims: up to `f` nodes can fail, where `(n-1) < (3f+1) <= n`. For three
nodes there is no such `f`. -/
theorem C71_ideal_counterexample : ¬ ∃ f : ℕ, 3 - 1 < 3 * f + 1 ∧ 3 * f + 1 ≤ 3 := by
  rintro ⟨f, h1, h2⟩; omega

/-- The documentation of `SymmetryEnforcingHigherTierNeighbors` claims that the top tier becomes a
symmetric cluster. Here all four nodes are in the top tier, with different quorum sets. -/
theorem C71_symmetric_counterexample :
    ∃ f : Fbas, QscSimulator.main busyRand id
        ⟨0, 0, .symmetryEnforcingHigherTierNeighbors "0|1|0\n2|3|0\n".toList none⟩ (0 : ℕ) =
          .ok f.toJson ∧
      InTopTier f 0 ∧ InTopTier f 2 ∧ HasQSet f 0 ⟨2, [0, 1], []⟩ ∧ HasQSet f 2 ⟨2, [2, 3], []⟩ :=
  ⟨Ref.mkFbas [⟨2, [0, 1], []⟩, ⟨2, [0, 1], []⟩, ⟨2, [2, 3], []⟩, ⟨2, [2, 3], []⟩],
    Ref.doc_of (by decide +kernel), ⟨{0, 1}, by decide +kernel, by decide⟩,
    ⟨{2, 3}, by decide +kernel, by decide⟩, ⟨_, rfl, rfl⟩, ⟨_, rfl, rfl⟩⟩

/-- `FameWeightedRandom` panics if too few nodes are the target of a link. -/
theorem C71_fame_counterexample :
    QscSimulator.main busyRand id ⟨2, 0, .fameWeightedRandom 2 "0|1|-1\n".toList none⟩ (0 : ℕ) =
      .error .unwrapNone :=
  Ref.error_of (by decide +kernel)

/-! ### Concrete cases -/

/-- A graph in which nobody links to node 2. -/
def unfamous : Text := "0|2|-1\n1|2|-1\n1|0|0\n".toList

theorem unfamous_graph : Graph.fromAsRelString unfamous = .ok ⟨[[1], [0], [0, 1]]⟩ := by
  have h : (Graph.fromAsRelString unfamous).map Graph.outlinks = .ok [[1], [0], [0, 1]] :=
    Ref.ok_of (by decide +kernel)
  cases hg : Graph.fromAsRelString unfamous with
  | error e => rw [hg] at h; cases h
  | ok g =>
    rw [hg] at h
    obtain ⟨l⟩ := g
    injection h with h
    exact congrArg (fun l => Except.ok (Graph.mk l)) h

/-- `C71_fame` for this graph: there are enough other nodes with links for quorum sets of 2 nodes, but not
for those of 3 nodes. -/
example : EnoughTargets ⟨[[1], [0], [0, 1]]⟩ 2 3 ∧ ¬ EnoughTargets ⟨[[1], [0], [0, 1]]⟩ 3 3 ∧
    ∃ e, QscSimulator.main busyRand id ⟨0, 0, .fameWeightedRandom 3 unfamous none⟩ (0 : ℕ) =
      .error e := by
  have h2 := C71_fame busyRand id 0 0 2 unfamous none _ unfamous_graph (Nat.le_refl _) (0 : ℕ)
  have h3 := C71_fame busyRand id 0 0 3 unfamous none _ unfamous_graph (by decide) (0 : ℕ)
  have e3 : QscSimulator.main busyRand id ⟨0, 0, .fameWeightedRandom 3 unfamous none⟩ (0 : ℕ) =
    .error .unwrapNone := Ref.error_of (by decide +kernel)
  refine ⟨?_, h3.2.1 ⟨_, e3⟩, _, e3⟩
  by_contra h
  obtain ⟨e, he⟩ := h2.2.2 h
  have hok : (QscSimulator.main busyRand id ⟨0, 0, .fameWeightedRandom 2 unfamous none⟩
      (0 : ℕ)).toOption.isSome = true := by decide +kernel
  rw [he] at hok
  cases hok

/-- Three nodes to begin with, a fourth one is added. -/
example : QscSimulator.main busyRand id ⟨3, 1, .ideal⟩ (0 : ℕ) =
    .ok (Ref.mkFbas (List.replicate 4 ⟨3, [0, 1, 2, 3], []⟩)).toJson :=
  Ref.doc_of (by decide +kernel)

example : QscSimulator.main busyRand id ⟨1, 2, .superSafe⟩ (0 : ℕ) =
    .ok (Ref.mkFbas (List.replicate 3 ⟨3, [0, 1, 2], []⟩)).toJson :=
  Ref.doc_of (by decide +kernel)

/-- Nodes 0 and 1 were configured when there were only two nodes. -/
example : QscSimulator.main busyRand id ⟨2, 2, .random 3⟩ (0 : ℕ) =
    .ok (Ref.mkFbas [⟨3, [0, 1, 2], []⟩, ⟨3, [1, 0, 2], []⟩, ⟨3, [2, 1, 0], []⟩,
      ⟨3, [3, 2, 1], []⟩]).toJson :=
  Ref.doc_of (by decide +kernel)

/-- A graph with three nodes, simulated with four nodes. -/
example : QscSimulator.main busyRand id
      ⟨2, 2, .allNeighbors "# c\n0|1|0\n1|2|0\n".toList (some (1 / 2))⟩ (0 : ℕ) =
    .ok (Ref.mkFbas [⟨1, [0, 1], []⟩, ⟨2, [0, 1, 2], []⟩, ⟨1, [1, 2], []⟩, ⟨0, [], []⟩]).toJson :=
  Ref.doc_of (by decide +kernel)

/-- Every node of this graph is the target of a link. -/
example : ∃ G, Graph.fromAsRelString "0|1|0\n1|2|0\n".toList = .ok G ∧
    ∀ j < G.outlinks.length, 1 ≤ linksInto G j :=
  ⟨⟨[[1], [0, 2], [1]]⟩, Ref.ok_of (by decide +kernel), by decide⟩

/-- Only node 1 has an above-average score; node 2 has no links. -/
example : QscSimulator.main busyRand id
      ⟨0, 0, .globalRank "0|1|0\n2|1|-1\n".toList none⟩ (0 : ℕ) =
    .ok (Ref.mkFbas [⟨1, [1], []⟩, ⟨1, [1], []⟩, ⟨0, [], []⟩]).toJson :=
  Ref.doc_of (by decide +kernel)

#print axioms C71_unreadable_graph
#print axioms C71_size
#print axioms C71_read_back
#print axioms C71_ideal
#print axioms C71_super_safe
#print axioms C71_random_partial
#print axioms C71_random_small
#print axioms C71_fame
#print axioms C71_fame_small
#print axioms C71_all_neighbors
#print axioms C71_higher_tier
#print axioms C71_symmetric_partial
#print axioms C71_global_rank
#print axioms C71_global_rank_panics
#print axioms C71_ideal_analysis
#print axioms C71_super_safe_analysis
#print axioms C71_default_size_counterexample
#print axioms C71_ideal_counterexample
#print axioms C71_symmetric_counterexample
#print axioms C71_fame_counterexample

end FA.Props
