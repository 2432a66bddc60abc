import Verif.Lemmas.SimulatorTools
import Verif.Lemmas.AsRel
import Verif.Props.Qsc
import Verif.Props.HigherTier
import Verif.Props.Json
import Verif.Props.Io

/-!
# The policies of `qsc_simulator`
-/

namespace FA
open Spec Simulator Props

variable {R : Rand}

/-! ### Graphs that have been read -/

theorem fromAsRel_spec {t : Text} {g : Graph} (h : Graph.fromAsRelString t = .ok g) :
    LinksInRange g ∧ ∀ l ∈ g.outlinks, l.Pairwise (· < ·) := by
  have key : ∀ (ls : List Text) (o o' : List NodeSet),
      (∀ x y : ℕ, y ∈ rowSet o x → y < o.length) → foldE Graph.readLine o ls = .ok o' →
      ∀ x y : ℕ, y ∈ rowSet o' x → y < o'.length := by
    intro ls
    induction ls with
    | nil => intro o o' ho h; rw [foldE] at h; rw [← Except.ok.inj h]; exact ho
    | cons l ls ih =>
      intro o o' ho h
      rw [foldE] at h
      unfold Graph.readLine at h
      cases he : Graph.getEdgeFromAsRelLine l with
      | error e => rw [he] at h; cases h
      | ok r =>
        rw [he] at h
        cases r with
        | none => exact ih o o' ho h
        | some e =>
          obtain ⟨a, b, p⟩ := e
          obtain ⟨o1, h1, h2, h3⟩ := insertEdge_spec o a b p
          dsimp only at h
          rw [h1] at h
          refine ih o1 o' (fun x y hy => ?_) h
          rw [h2]
          rcases (h3 x y).1 hy with hy | ⟨-, rfl⟩ | ⟨-, -, rfl⟩
          · exact Nat.lt_of_lt_of_le (ho x y hy) (Nat.le_max_left _ _)
          · exact lt_of_lt_of_le (Nat.lt_succ_of_le (Nat.le_max_left y b)) (Nat.le_max_right _ _)
          · exact lt_of_lt_of_le (Nat.lt_succ_of_le (Nat.le_max_right a y)) (Nat.le_max_right _ _)
  unfold Graph.fromAsRelString at h
  cases hf : foldE Graph.readLine [] (Text.lines t) with
  | error e => rw [hf] at h; cases h
  | ok o =>
    rw [hf] at h
    rw [← Except.ok.inj h]
    refine ⟨fun i j hl => ?_, fun l hl => ?_⟩
    · have := key _ [] o (fun x y hy => by simp [rowSet] at hy) hf i j (link_elems.1 hl)
      simpa using this
    · obtain ⟨r, -, rfl⟩ := List.mem_map.1 hl
      exact elems_pairwise r

/-! ### Names are kept -/

/-- The configurator does not add, remove or rename nodes. -/
def Keeps (qsc : Qsc R) : Prop :=
  ∀ x f s c f' s', qsc x (f, s) = .ok (c, f', s') → SameNames f f'

theorem setQuorumSet_names {f f' : Fbas} {x : NodeId} {q : QuorumSet}
    (h : Qsc.setQuorumSet f x q = .ok f') : SameNames f f' := by
  by_cases hx : x < f.nodes.length
  · obtain ⟨f1, h1, h2, -⟩ := swap_spec hx q
    rw [h1] at h
    rw [← Except.ok.inj h]; exact h2
  · unfold Qsc.setQuorumSet Fbas.swapQuorumSet at h
    rw [List.getElem?_eq_none (Nat.le_of_not_lt hx)] at h
    cases h

theorem replace_names {f f' : Fbas} {s s' : R.State} {x : NodeId} {q : QuorumSet} {c : ChangeEffect}
    (h : Qsc.replaceIfDifferent R q x (f, s) = .ok (c, f', s')) : SameNames f f' := by
  unfold Qsc.replaceIfDifferent at h
  dsimp only at h
  cases he : Qsc.existing f x with
  | error e => rw [he] at h; cases h
  | ok q0 =>
    rw [he] at h
    dsimp only at h
    split at h
    · obtain ⟨-, h6⟩ := Prod.mk.inj (Except.ok.inj h)
      obtain ⟨rfl, -⟩ := Prod.mk.inj h6
      exact ⟨rfl, rfl⟩
    · cases hs : Qsc.setQuorumSet f x q with
      | error e => rw [hs] at h; cases h
      | ok f1 =>
        rw [hs] at h
        obtain ⟨-, h6⟩ := Prod.mk.inj (Except.ok.inj h)
        obtain ⟨rfl, -⟩ := Prod.mk.inj h6
        exact setQuorumSet_names hs

theorem keeps_ideal : Keeps (Qsc.ideal R) := fun _ _ _ _ _ _ h => replace_names h

theorem keeps_superSafe : Keeps (Qsc.superSafe R) := fun _ _ _ _ _ _ h => replace_names h

theorem keeps_random (size : ℕ) (t : Option ℕ) (w : List ℕ) : Keeps (Qsc.random R size t w) := by
  intro x f s c f' s' h
  unfold Qsc.random at h
  dsimp only at h
  cases he : Qsc.existing f x with
  | error e => rw [he] at h; cases h
  | ok q =>
    rw [he] at h
    dsimp only at h
    generalize (if q.validators = [] then [x] else q.validators) = vs at h
    split at h
    · split at h
      · cases h
      · split at h
        · cases h
        · cases h; exact setQuorumSet_names (by assumption)
    · split at h
      · cases h
      · cases h; exact setQuorumSet_names (by assumption)

theorem keeps_allNeighbors (g : Graph) (rel : Option ℚ) : Keeps (Qsc.allNeighbors R g rel) := by
  intro x f s c f' s' h
  unfold Qsc.allNeighbors at h
  dsimp only at h
  cases he : Qsc.existing f x with
  | error e => rw [he] at h; cases h
  | ok q =>
    rw [he] at h
    dsimp only at h
    split at h
    · split at h
      · cases h
      · split at h
        · cases h
        · cases h; exact setQuorumSet_names (by assumption)
    · cases h; exact ⟨rfl, rfl⟩

theorem keeps_globalRank (g : Graph) (T : List NodeId) (rel : Option ℚ) :
    Keeps (Qsc.globalRank R g T rel) := by
  intro x f s c f' s' h
  unfold Qsc.globalRank at h
  dsimp only at h
  cases he : Qsc.existing f x with
  | error e => rw [he] at h; cases h
  | ok q =>
    rw [he] at h
    dsimp only at h
    split at h
    · split at h
      · cases h
      · split at h
        · split at h
          · cases h
          · cases h; exact setQuorumSet_names (by assumption)
        · cases h; exact ⟨rfl, rfl⟩
    · cases h; exact ⟨rfl, rfl⟩

theorem keeps_higherTier (g : Graph) (sc : List ℚ) (rel : Option ℚ) (sym : Bool) :
    Keeps (Qsc.higherTierNeighbors R g sc rel sym) := by
  intro x f s c f' s' h
  unfold Qsc.higherTierNeighbors at h
  split at h
  · split at h
    · cases h
    · exact replace_names h
  · cases h; exact ⟨rfl, rfl⟩

theorem Keeps.visits {qsc : Qsc R} (h : Keeps qsc) {st st' : Fbas × R.State}
    {vs : List (NodeId × ChangeEffect)} (hv : Visits qsc st vs st') : SameNames st.1 st'.1 := by
  induction hv with
  | nil st => exact ⟨rfl, rfl⟩
  | @cons st st' st'' x c vs h1 _ ih => exact (h x st.1 st.2 c st'.1 st'.2 h1).trans ih

theorem Keeps.rounds {qsc : Qsc R} (h : Keeps qsc) {n : ℕ} {f f' : Fbas}
    {rs : List (List (NodeId × ChangeEffect))} (hr : Rounds qsc n f rs f') : SameNames f f' := by
  induction hr with
  | nil f => exact ⟨rfl, rfl⟩
  | cons _ hv _ ih =>
    have h1 := h.visits hv
    exact SameNames.trans h1 ih

theorem Keeps.reevaluation {qsc : Qsc R} (h : Keeps qsc) {max k : ℕ} {sim sim' : Simulator R}
    (hr : simulateGlobalReevaluation qsc max sim = .ok (k, sim')) : SameNames sim.fbas sim'.fbas := by
  obtain ⟨rs, -, -, h1, -⟩ := C42_rounds qsc max k sim sim' hr
  exact h.rounds h1

theorem Keeps.growth {qsc : Qsc R} (h : Keeps qsc) (k m : ℕ) (sim sim' : Simulator R)
    (hreg : RegistryOk sim.fbas)
    (hn : sim.fbas.nodes.map Node.publicKey = (List.range m).map (fun i => "n" ++ toString i))
    (hg : simulateGrowth qsc k sim = .ok sim') :
    RegistryOk sim'.fbas ∧
      sim'.fbas.nodes.map Node.publicKey = (List.range (m + k)).map (fun i => "n" ++ toString i) := by
  induction k generalizing m sim with
  | zero => rw [simulateGrowth] at hg; rw [← Except.ok.inj hg]; exact ⟨hreg, hn⟩
  | succ k ih =>
    have hl : sim.fbas.nodes.length = m := by
      have := congrArg List.length hn; simpa using this
    rw [simulateGrowth] at hg
    cases hr : sim.fbas.addGenericNode QuorumSet.empty with
    | error e => rw [hr] at hg; cases hg
    | ok p =>
      obtain ⟨x, f⟩ := p
      rw [hr] at hg
      dsimp only at hg
      obtain ⟨h3, h4, h5⟩ := (C40_add_generic_node sim.fbas hreg QuorumSet.empty).2 x f hr
      cases hq : qsc x (f, sim.rng) with
      | error e => rw [hq] at hg; cases hg
      | ok p =>
        obtain ⟨c, f', s'⟩ := p
        rw [hq] at hg
        dsimp only at hg
        have h6 := h x f sim.rng c f' s' hq
        split at hg
        · cases hg
        · rename_i k' sim2 hre
          have h7 := h.reevaluation hre
          have h7' : SameNames f' sim2.fbas := h7
          have hk : m + (k + 1) = m + 1 + k := by omega
          rw [hk]
          refine ih (m + 1) sim2 (h7'.registry (h6.registry h5)) ?_ hg
          rw [h7'.1, h6.1, h4, List.map_append, hn, hl, List.range_succ, List.map_append]; rfl

theorem Keeps.simulate {qsc : Qsc R} (h : Keeps qsc) {i g : ℕ} {s : R.State} {f : Fbas}
    (hs : QscSimulator.simulate qsc i g s = .ok f) :
    RegistryOk f ∧
      f.nodes.map Node.publicKey = (List.range (i + g)).map (fun i => "n" ++ toString i) := by
  obtain ⟨f0, h1, h2, h3⟩ := C40_new_generic_unconfigured i
  unfold QscSimulator.simulate at hs
  rw [h1] at hs
  dsimp only at hs
  have hn0 : f0.nodes.map Node.publicKey = (List.range i).map (fun i => "n" ++ toString i) := by
    rw [h2, List.map_map]; rfl
  split at hs
  · cases hs
  · rename_i k sim1 hre
    split at hs
    · cases hs
    · rename_i sim2 hgr
      rw [← Except.ok.inj hs]
      have h7 : SameNames f0 sim1.fbas := h.reevaluation hre
      exact h.growth g i sim1 sim2 (h7.registry h3) (by rw [h7.1, hn0]) hgr

theorem keeps_config {rnd : ℚ → ℚ} {config : QscSimulator.Config} {qsc : Qsc R} {n : ℕ}
    (h : QscSimulator.parseQscConfig R rnd config = .ok (qsc, n)) : Keeps qsc := by
  have hw : ∀ (t : Text) (mk : Graph → Except Panic (Qsc R)),
      (∀ g q, mk g = .ok q → Keeps q) → QscSimulator.withGraph t mk = .ok (qsc, n) → Keeps qsc := by
    intro t mk hmk h
    unfold QscSimulator.withGraph at h
    split at h
    · cases h
    · split at h
      · cases h
      · rename_i q hq
        obtain ⟨rfl, -⟩ := Prod.mk.inj (Except.ok.inj h)
        exact hmk _ _ hq
  cases config with
  | superSafe =>
    obtain ⟨rfl, -⟩ := Prod.mk.inj (Except.ok.inj h); exact keeps_superSafe
  | ideal =>
    obtain ⟨rfl, -⟩ := Prod.mk.inj (Except.ok.inj h); exact keeps_ideal
  | random size =>
    obtain ⟨rfl, -⟩ := Prod.mk.inj (Except.ok.inj h); exact keeps_random _ _ _
  | fameWeightedRandom size t th =>
    refine hw _ _ (fun g q hq => ?_) h
    split at hq
    · cases hq
    · rw [← Except.ok.inj hq]; exact keeps_random _ _ _
  | allNeighbors t rel =>
    refine hw t (fun g => .ok (Qsc.allNeighbors R g rel)) (fun g q hq => ?_) h
    rw [← Except.ok.inj hq]; exact keeps_allNeighbors _ _
  | higherTierNeighbors t rel =>
    refine hw _ _ (fun g q hq => ?_) h
    unfold QscSimulator.newHigherTier at hq
    split at hq
    · cases hq
    · rw [← Except.ok.inj hq]; exact keeps_higherTier _ _ _ _
  | symmetryEnforcingHigherTierNeighbors t rel =>
    refine hw _ _ (fun g q hq => ?_) h
    unfold QscSimulator.newHigherTier at hq
    split at hq
    · cases hq
    · rw [← Except.ok.inj hq]; exact keeps_higherTier _ _ _ _
  | globalRank t rel =>
    refine hw _ _ (fun g q hq => ?_) h
    unfold QscSimulator.newGlobalRank at hq
    split at hq
    · cases hq
    · rw [← Except.ok.inj hq]; exact keeps_globalRank _ _ _

/-! ### Reading the output -/

/-- With the names of the simulation, reading the written FBAS gives the same names and quorums, also if
some validators do not exist. -/
theorem generic_read_back {f : Fbas} {n : ℕ}
    (hn : f.nodes.map Node.publicKey = (List.range n).map (fun i => "n" ++ toString i)) :
    (Fbas.fromRaw f.toRaw).nodes.map Node.publicKey = f.nodes.map Node.publicKey ∧
      ∀ Q, IsQuorum (Fbas.fromRaw f.toRaw) Q ↔ IsQuorum f Q := by
  have hd : DistinctNames f := by
    unfold DistinctNames
    rw [hn]
    refine List.Nodup.map (fun i j h => genericNodeName_inj h) List.nodup_range
  have hkeys : (Fbas.fromRaw f.toRaw).nodes.map Node.publicKey = f.nodes.map Node.publicKey := by
    rw [keys_fromRaw, keys_toRaw]
  refine ⟨hkeys, fun Q => ?_⟩
  have hlen : (Fbas.fromRaw f.toRaw).nodes.length = f.nodes.length := by
    have := congrArg List.length hkeys; simpa using this
  have hname : ∀ x, nameOf (Fbas.fromRaw f.toRaw) x = nameOf f x := by
    intro x
    have h1 := congrArg (fun l => l[x]?) hkeys
    simp only [List.getElem?_map] at h1
    unfold nameOf
    cases ha : (Fbas.fromRaw f.toRaw).nodes[x]? <;> cases hb : f.nodes[x]? <;> simp_all
  have hall : (Fbas.fromRaw f.toRaw).allNodes = f.allNodes := by
    unfold Fbas.allNodes; rw [hlen]
  have hnames : names (Fbas.fromRaw f.toRaw) Q = names f Q := by
    unfold names; exact Finset.image_congr (fun x _ => hname x)
  by_cases hQ : Q ⊆ f.allNodes
  · rw [← rawQuorum_fromRaw (toRaw_keys_distinct hd) (hall ▸ hQ), hnames]
    have hs : ∀ q, (RawSlice (names f Q) (QuorumSet.toRaw f q) ↔ Slice Q q) :=
      fun q => slice_toRaw (fun x _ => by
        by_cases hx : x < f.nodes.length
        · rw [rawName_of_lt hx, mem_names hd hQ hx]
        · have hr : f.rawName x = "missing #" ++ toString x := by
            unfold Fbas.rawName; rw [List.getElem?_eq_none (Nat.le_of_not_lt hx)]
          refine ⟨fun h => ?_, fun h => absurd (Finset.mem_range.1 (hQ h)) hx⟩
          obtain ⟨y, hy, hyx⟩ := Finset.mem_image.1 h
          have hyn := Finset.mem_range.1 (hQ hy)
          have : nameOf f y ∈ f.nodes.map Node.publicKey := by
            unfold nameOf; rw [List.getElem?_eq_getElem hyn]
            exact List.mem_map_of_mem (List.getElem_mem hyn)
          rw [hn] at this
          obtain ⟨i, -, hi⟩ := List.mem_map.1 this
          rw [hr, ← hi] at hyx
          have := congrArg (fun s => s.toList.head?) hyx
          simp at this)
    unfold RawQuorum IsQuorum
    refine and_congr (by unfold names; rw [Finset.image_nonempty]) ?_
    constructor
    · intro h x hx
      obtain ⟨n, hn, hp, hsl⟩ := h _ (Finset.mem_image_of_mem (nameOf f) hx)
      obtain ⟨n', hn', rfl⟩ := List.mem_map.1 hn
      obtain ⟨i, hi, rfl⟩ := List.getElem_of_mem hn'
      have hix : i = x := by
        refine nameOf_inj hd hi (Finset.mem_range.1 (hQ hx)) (Eq.trans ?_ hp)
        unfold nameOf; rw [List.getElem?_eq_getElem hi]; rfl
      subst hix
      exact ⟨_, ⟨_, List.getElem?_eq_getElem hi, rfl⟩, (hs _).1 hsl⟩
    · intro h p hp
      obtain ⟨x, hx, rfl⟩ := Finset.mem_image.1 hp
      obtain ⟨q, ⟨n, hn, rfl⟩, hsl⟩ := h x hx
      have hmem := List.mem_of_getElem? hn
      refine ⟨n.toRaw f, List.mem_map_of_mem hmem, ?_, (hs _).2 hsl⟩
      unfold nameOf; rw [hn]; rfl
  · exact ⟨fun h => absurd (hall ▸ h.subset_all) hQ, fun h => absurd h.subset_all hQ⟩

end FA
