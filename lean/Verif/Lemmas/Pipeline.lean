import Verif.Lemmas.SimulatorPolicies
import Verif.Lemmas.TidyInput
import Verif.SpecPipeline

/-!
# Quorum sets of simulated networks

All quorum sets that the policies of the simulator produce are flat and list no node twice.
-/

namespace FA
open Spec Simulator Props

variable {R : Rand}

/-- The configurator keeps quorum sets plain. -/
def KeepsPlain (qsc : Qsc R) : Prop :=
  ∀ x f s c f' s', Plain f → qsc x (f, s) = .ok (c, f', s') → Plain f'

theorem Spec.Plain.set {f f' : Fbas} {x : NodeId} {q : QuorumSet} (hp : Plain f)
    (h : Qsc.setQuorumSet f x q = .ok f') (hq : q.inner = []) (hn : q.validators.Nodup) : Plain f' := by
  by_cases hx : x < f.nodes.length
  · obtain ⟨f1, h1, -, h2⟩ := swap_spec hx q
    rw [h1] at h
    obtain rfl := Except.ok.inj h
    intro y p hy
    rw [← getQuorumSet_iff, h2] at hy
    split at hy
    · obtain rfl := Option.some.inj hy; exact ⟨hq, hn⟩
    · exact hp y p (getQuorumSet_iff.1 hy)
  · unfold Qsc.setQuorumSet Fbas.swapQuorumSet at h
    rw [List.getElem?_eq_none (Nat.le_of_not_lt hx)] at h
    cases h

theorem Spec.Plain.replace {f f' : Fbas} {s s' : R.State} {x : NodeId} {q : QuorumSet} {c : ChangeEffect}
    (hp : Plain f) (hq : q.inner = []) (hn : q.validators.Nodup)
    (h : Qsc.replaceIfDifferent R q x (f, s) = .ok (c, f', s')) : Plain f' := by
  unfold Qsc.replaceIfDifferent at h
  dsimp only at h
  split at h
  · cases h
  · split at h
    · cases h; exact hp
    · split at h
      · cases h
      · cases h; exact hp.set (by assumption) hq hn

theorem plain_existing {f : Fbas} {x : NodeId} {q : QuorumSet} (hp : Plain f)
    (h : Qsc.existing f x = .ok q) : q.inner = [] ∧ q.validators.Nodup := by
  unfold Qsc.existing at h
  split at h
  · cases h
  · rename_i q' hq
    obtain rfl := Except.ok.inj h
    exact hp x _ (getQuorumSet_iff.1 hq)

theorem nodup_withNode {l : List NodeId} (h : l.Nodup) (x : NodeId) :
    (sortIds (if x ∈ l then l else l ++ [x])).Nodup := by
  refine (sortIds_perm _).nodup_iff.2 ?_
  split
  · exact h
  · rename_i hx
    exact List.nodup_append.2 ⟨h, List.nodup_singleton _, fun a ha b hb hab => by
      rw [List.mem_singleton] at hb; subst hab; subst hb; exact hx ha⟩

theorem keepsPlain_ideal : KeepsPlain (Qsc.ideal R) := fun _ _ _ _ _ _ hp h =>
  hp.replace rfl (nodup_rangeFT _ _) h

theorem keepsPlain_superSafe : KeepsPlain (Qsc.superSafe R) := fun _ _ _ _ _ _ hp h =>
  hp.replace rfl (nodup_rangeFT _ _) h

theorem keepsPlain_random (size : ℕ) (t : Option ℕ) (w : List ℕ) :
    KeepsPlain (Qsc.random R size t w) := by
  intro x f s c f' s' hp h
  unfold Qsc.random at h
  dsimp only at h
  cases he : Qsc.existing f x with
  | error e => rw [he] at h; cases h
  | ok q =>
    rw [he] at h
    dsimp only at h
    obtain ⟨hq, hn⟩ := plain_existing hp he
    have hvs : (if q.validators = [] then [x] else q.validators).Nodup := by
      split
      · exact List.nodup_singleton _
      · exact hn
    generalize (if q.validators = [] then [x] else q.validators) = vs at h hvs
    split at h
    · split at h
      · cases h
      · rename_i vs' s1 hl
        obtain ⟨new, rfl, h1, -, h2⟩ := randomLoop_ok ((nodup_rangeFT _ _).filter _) hl
        split at h
        · cases h
        · rename_i hset
          cases h
          refine hp.set hset hq ?_
          refine List.nodup_append.2 ⟨hvs, h1, fun a ha b hb hab => ?_⟩
          have := (List.mem_filter.1 (h2 b hb).1).2
          subst hab
          simp [ha] at this
    · split at h
      · cases h
      · rename_i hset
        cases h; exact hp.set hset hq hvs

theorem keepsPlain_allNeighbors {g : Graph} (hg : ∀ l ∈ g.outlinks, l.Nodup) (rel : Option ℚ) :
    KeepsPlain (Qsc.allNeighbors R g rel) := by
  intro x f s c f' s' hp h
  unfold Qsc.allNeighbors at h
  dsimp only at h
  split at h
  · cases h
  · rename_i q he
    obtain ⟨hq, -⟩ := plain_existing hp he
    split at h
    · rename_i hc
      obtain ⟨-, rfl⟩ := hc
      split at h
      · cases h
      · rename_i links hl
        split at h
        · cases h
        · rename_i hset
          cases h
          refine hp.set hset rfl ?_
          exact nodup_withNode (hg _ (List.mem_of_getElem? hl)) x
    · cases h; exact hp

theorem keepsPlain_globalRank (g : Graph) {T : List NodeId} (hT : T.Nodup) (rel : Option ℚ) :
    KeepsPlain (Qsc.globalRank R g T rel) := by
  intro x f s c f' s' hp h
  unfold Qsc.globalRank at h
  dsimp only at h
  split at h
  · cases h
  · rename_i q he
    obtain ⟨hq, -⟩ := plain_existing hp he
    split at h
    · split at h
      · cases h
      · split at h
        · split at h
          · cases h
          · rename_i hset
            cases h; exact hp.set hset hq hT
        · cases h; exact hp
    · cases h; exact hp

theorem keepsPlain_higherTier {g : Graph} (hg : ∀ l ∈ g.outlinks, l.Nodup) (sc : List ℚ)
    (rel : Option ℚ) (sym : Bool) : KeepsPlain (Qsc.higherTierNeighbors R g sc rel sym) := by
  intro x f s c f' s' hp h
  unfold Qsc.higherTierNeighbors at h
  split at h
  · split at h
    · cases h
    · rename_i higher same lower ht
      unfold Qsc.neighborsByTierness at ht
      split at ht
      · cases ht
      · split at ht
        · cases ht
        · rename_i links hl
          have hln := hg _ (List.mem_of_getElem? hl)
          split at ht
          · cases ht
          · cases ht
            refine hp.replace rfl (nodup_withNode ?_ x) h
            split
            · exact elems_nodup _
            · split
              · exact hln.filter _
              · exact (hln.filter _).filter _
  · cases h; exact hp

theorem nodup_topTierNodes {rnd : ℚ → ℚ} {g : Graph} {T : List NodeId}
    (h : Qsc.topTierNodes rnd g = .ok T) : T.Nodup := by
  unfold Qsc.topTierNodes at h
  dsimp only at h
  split at h
  · cases h
  · split at h
    · cases h
    · cases h; exact (nodup_rangeFT _ _).filter _

theorem KeepsPlain.visits {qsc : Qsc R} (h : KeepsPlain qsc) {st st' : Fbas × R.State}
    {vs : List (NodeId × ChangeEffect)} (hv : Visits qsc st vs st') (hp : Plain st.1) : Plain st'.1 := by
  induction hv with
  | nil st => exact hp
  | @cons st st' st'' x c vs h1 _ ih => exact ih (h x st.1 st.2 c st'.1 st'.2 hp h1)

theorem KeepsPlain.rounds {qsc : Qsc R} (h : KeepsPlain qsc) {n : ℕ} {f f' : Fbas}
    {rs : List (List (NodeId × ChangeEffect))} (hr : Rounds qsc n f rs f') (hp : Plain f) : Plain f' := by
  induction hr with
  | nil f => exact hp
  | cons _ hv _ ih => exact ih (h.visits hv hp)

theorem KeepsPlain.reevaluation {qsc : Qsc R} (h : KeepsPlain qsc) {max k : ℕ} {sim sim' : Simulator R}
    (hr : simulateGlobalReevaluation qsc max sim = .ok (k, sim')) (hp : Plain sim.fbas) :
    Plain sim'.fbas := by
  obtain ⟨rs, -, -, h1, -⟩ := C42_rounds qsc max k sim sim' hr
  exact h.rounds h1 hp

theorem KeepsPlain.growth {qsc : Qsc R} (h : KeepsPlain qsc) (hk : Keeps qsc) (k : ℕ)
    (sim sim' : Simulator R) (hreg : RegistryOk sim.fbas) (hp : Plain sim.fbas)
    (hg : simulateGrowth qsc k sim = .ok sim') : Plain sim'.fbas := by
  induction k generalizing sim with
  | zero => rw [simulateGrowth] at hg; rw [← Except.ok.inj hg]; exact hp
  | succ k ih =>
    rw [simulateGrowth] at hg
    cases hr : sim.fbas.addGenericNode QuorumSet.empty with
    | error e => rw [hr] at hg; cases hg
    | ok p =>
      obtain ⟨x, f⟩ := p
      rw [hr] at hg
      dsimp only at hg
      obtain ⟨h3, h4, h5⟩ := (C40_add_generic_node sim.fbas hreg QuorumSet.empty).2 x f hr
      have hpf : Plain f := by
        rintro y q ⟨n, hn, rfl⟩
        rw [h4, List.getElem?_append] at hn
        split at hn
        · exact hp y _ ⟨n, hn, rfl⟩
        · have := List.mem_of_getElem? hn
          rw [List.mem_singleton] at this
          subst this
          exact ⟨rfl, List.nodup_nil⟩
      cases hq : qsc x (f, sim.rng) with
      | error e => rw [hq] at hg; cases hg
      | ok p =>
        obtain ⟨c, f', s'⟩ := p
        rw [hq] at hg
        dsimp only at hg
        have h6 := hk x f sim.rng c f' s' hq
        have h6' := h x f sim.rng c f' s' hpf hq
        split at hg
        · cases hg
        · rename_i k' sim2 hre
          have h7 : SameNames f' sim2.fbas := hk.reevaluation hre
          exact ih sim2 (h7.registry (h6.registry h5)) (h.reevaluation hre h6') hg

theorem KeepsPlain.simulate {qsc : Qsc R} (h : KeepsPlain qsc) (hk : Keeps qsc) {i g : ℕ} {s : R.State}
    {f : Fbas} (hs : QscSimulator.simulate qsc i g s = .ok f) : Plain f := by
  obtain ⟨f0, h1, h2, h3⟩ := C40_new_generic_unconfigured i
  unfold QscSimulator.simulate at hs
  rw [h1] at hs
  dsimp only at hs
  have hp0 : Plain f0 := by
    rintro y q ⟨n, hn, rfl⟩
    rw [h2] at hn
    obtain ⟨j, -, rfl⟩ := List.mem_map.1 (List.mem_of_getElem? hn)
    exact ⟨rfl, List.nodup_nil⟩
  split at hs
  · cases hs
  · rename_i k sim1 hre
    split at hs
    · cases hs
    · rename_i sim2 hgr
      rw [← Except.ok.inj hs]
      have h7 : SameNames f0 sim1.fbas := hk.reevaluation hre
      exact h.growth hk g sim1 sim2 (h7.registry h3) (h.reevaluation hre hp0) hgr

theorem keepsPlain_config {rnd : ℚ → ℚ} {config : QscSimulator.Config} {qsc : Qsc R} {n : ℕ}
    (h : QscSimulator.parseQscConfig R rnd config = .ok (qsc, n)) : KeepsPlain qsc := by
  have hw : ∀ (t : Text) (mk : Graph → Except Panic (Qsc R)),
      (∀ g q, (∀ l ∈ g.outlinks, l.Nodup) → mk g = .ok q → KeepsPlain q) →
      QscSimulator.withGraph t mk = .ok (qsc, n) → KeepsPlain qsc := by
    intro t mk hmk h
    unfold QscSimulator.withGraph at h
    split at h
    · cases h
    · rename_i g _ hg
      unfold QscSimulator.parseGraph at hg
      split at hg
      · cases hg
      rename_i g' hg'
      obtain ⟨rfl, -⟩ := Prod.mk.inj (Except.ok.inj hg)
      split at h
      · cases h
      · rename_i q hq
        obtain ⟨rfl, -⟩ := Prod.mk.inj (Except.ok.inj h)
        exact hmk _ _ (fun l hl => ((fromAsRel_spec hg').2 l hl).imp (fun h => ne_of_lt h)) hq
  cases config with
  | superSafe =>
    obtain ⟨rfl, -⟩ := Prod.mk.inj (Except.ok.inj h); exact keepsPlain_superSafe
  | ideal =>
    obtain ⟨rfl, -⟩ := Prod.mk.inj (Except.ok.inj h); exact keepsPlain_ideal
  | random size =>
    obtain ⟨rfl, -⟩ := Prod.mk.inj (Except.ok.inj h); exact keepsPlain_random _ _ _
  | fameWeightedRandom size t th =>
    refine hw _ _ (fun g q _ hq => ?_) h
    split at hq
    · cases hq
    · rw [← Except.ok.inj hq]; exact keepsPlain_random _ _ _
  | allNeighbors t rel =>
    refine hw t (fun g => .ok (Qsc.allNeighbors R g rel)) (fun g q hg hq => ?_) h
    rw [← Except.ok.inj hq]; exact keepsPlain_allNeighbors hg _
  | higherTierNeighbors t rel =>
    refine hw _ _ (fun g q hg hq => ?_) h
    unfold QscSimulator.newHigherTier at hq
    split at hq
    · cases hq
    · rw [← Except.ok.inj hq]; exact keepsPlain_higherTier hg _ _ _
  | symmetryEnforcingHigherTierNeighbors t rel =>
    refine hw _ _ (fun g q hg hq => ?_) h
    unfold QscSimulator.newHigherTier at hq
    split at hq
    · cases hq
    · rw [← Except.ok.inj hq]; exact keepsPlain_higherTier hg _ _ _
  | globalRank t rel =>
    refine hw _ _ (fun g q hg hq => ?_) h
    unfold QscSimulator.newGlobalRank at hq
    split at hq
    · cases hq
    · rename_i T hT
      rw [← Except.ok.inj hq]; exact keepsPlain_globalRank _ (nodup_topTierNodes hT) _

/-! ### Reading the output -/

theorem rawName_inj {f : Fbas} {n : ℕ}
    (hn : f.nodes.map Node.publicKey = (List.range n).map (fun i => "n" ++ toString i)) {x y : NodeId}
    (h : f.rawName x = f.rawName y) : x = y := by
  have hl : f.nodes.length = n := by
    have := congrArg List.length hn; simpa using this
  have hlt : ∀ z : ℕ, z < n → f.rawName z = "n" ++ toString z := by
    intro z hz
    have h1 := congrArg (fun l => l[z]?) hn
    have hz' : z < f.nodes.length := by omega
    simp only [List.getElem?_map, List.getElem?_eq_getElem hz', List.getElem?_range hz,
      Option.map_some] at h1
    unfold Fbas.rawName
    rw [List.getElem?_eq_getElem hz']
    exact Option.some.inj h1
  have hge : ∀ z : ℕ, ¬ z < n → f.rawName z = "missing #" ++ toString z := by
    intro z hz
    unfold Fbas.rawName
    rw [List.getElem?_eq_none (by omega)]
  by_cases hx : (x : ℕ) < n <;> by_cases hy : (y : ℕ) < n
  · rw [hlt x hx, hlt y hy] at h
    exact genericNodeName_inj h
  · rw [hlt x hx, hge y hy] at h
    have := congrArg (fun s => s.toList.head?) h
    simp at this
  · rw [hge x hx, hlt y hy] at h
    have := congrArg (fun s => s.toList.head?) h
    simp at this
  · rw [hge x hx, hge y hy] at h
    have h1 := (String.append_right_inj _).1 h
    exact genericNodeName_inj (by unfold Fbas.genericNodeName; rw [h1])

/-- Saving and loading a simulated network keeps quorum sets plain. -/
theorem Spec.Plain.read_back {f : Fbas} {n : ℕ} (hp : Plain f)
    (hn : f.nodes.map Node.publicKey = (List.range n).map (fun i => "n" ++ toString i)) :
    Plain (Fbas.fromRaw f.toRaw) := by
  have hd : DistinctNames f := by
    unfold DistinctNames
    rw [hn]
    exact List.Nodup.map (fun i j h => genericNodeName_inj h) List.nodup_range
  intro x q hq
  rw [hasQSet_fromRaw] at hq
  obtain ⟨m, hm, rfl⟩ := hq
  unfold Fbas.toRaw at hm
  rw [List.getElem?_map, Option.map_eq_some_iff] at hm
  obtain ⟨v, hv, rfl⟩ := hm
  obtain ⟨h1, h2⟩ := hp x _ ⟨v, hv, rfl⟩
  obtain ⟨k, q⟩ := v
  obtain ⟨t, vs, qs⟩ := q
  dsimp only at h1 h2
  subst h1
  refine ⟨rfl, ?_⟩
  change (sortIds ((vs.map f.rawName).filterMap (Fbas.rawIds f.toRaw).get?)).Nodup
  refine (sortIds_perm _).nodup_iff.2 ?_
  refine List.Nodup.filterMap ?_ (h2.map fun a b => rawName_inj hn)
  intro p p' i hp hp'
  obtain ⟨a, ha, rfl⟩ := (rawIds_toRaw hd p i).1 hp
  obtain ⟨b, hb, rfl⟩ := (rawIds_toRaw hd p' i).1 hp'
  rw [ha] at hb
  rw [Option.some.inj hb]

/-- If a network with plain quorum sets can be read after writing it, all thresholds fit into 64 bits. -/
theorem Spec.Plain.fits {f f' : Fbas} (hp : Plain f) (h : Fbas.fromJson f.toJson = .ok f') :
    ∀ v ∈ f.nodes, FitsQ v.quorumSet := by
  obtain ⟨r, ⟨js, hjs, hr⟩, -⟩ := ((C62_nodes f.toJson).1 f').1 h
  intro v hv
  have hmem : RawNode.toJson (Node.toRaw f v) ∈ js := by
    unfold Fbas.toJson RawFbas.toJson Fbas.toRaw at hjs
    rw [← Json.arr.inj hjs, List.map_map]
    exact List.mem_map_of_mem (f := RawNode.toJson ∘ Node.toRaw f) hv
  obtain ⟨i, hi, hi'⟩ := List.mem_iff_getElem.1 hmem
  have hd := hr.get hi (hr.length_eq ▸ hi)
  simp only [List.get_eq_getElem] at hd
  rw [hi'] at hd
  obtain ⟨x, hx⟩ := List.mem_iff_getElem?.1 hv
  obtain ⟨h1, -⟩ := hp x _ ⟨v, hx, rfl⟩
  obtain ⟨k, t, vs, qs⟩ := v
  dsimp only at h1
  subst h1
  refine .intro ?_ (by simp)
  obtain ⟨n, hd⟩ : ∃ n, DescribesNode (RawNode.toJson (Node.toRaw f ⟨k, ⟨t, vs, []⟩⟩)) n := ⟨_, hd⟩
  rcases hd with ⟨l, hl, -, hq, -⟩ | ⟨_, _, _, hl, -⟩
  · obtain rfl := Json.obj.inj hl
    have ho : OneEntry [("publicKey", Json.str k), ("quorumSet",
        RawQuorumSet.toJson (QuorumSet.toRaw f ⟨t, vs, []⟩))] "quorumSet"
        (RawQuorumSet.toJson (QuorumSet.toRaw f ⟨t, vs, []⟩)) := by
      rw [OneEntry.cons_ne (by decide), OneEntry.cons_self]
      exact ⟨rfl, fun e he => by cases he⟩
    rcases hq with ⟨hno, -⟩ | ⟨j', hj', hq'⟩
    · exact absurd hno ho.not_none
    · rw [hj'.unique ho] at hq'
      generalize n.quorumSet = p at hq'
      generalize hjq : RawQuorumSet.toJson (QuorumSet.toRaw f ⟨t, vs, []⟩) = jq at hq'
      have ht : OneEntry [("threshold", Json.nat t), ("validators", Json.arr ((vs.map f.rawName).map .str))]
          "threshold" (.nat t) := by
        rw [OneEntry.cons_self]
        refine ⟨rfl, fun e he => ?_⟩
        rw [List.mem_singleton] at he
        subst he
        change "validators" ≠ "threshold"
        decide
      cases hq' with
      | obj h2 h3 _ _ _ _ =>
        obtain rfl := Json.obj.inj hjq
        cases h2.unique ht
        exact h3
      | flatObj h2 h3 _ _ =>
        obtain rfl := Json.obj.inj hjq
        cases h2.unique ht
        exact h3
      | arr _ _ _ => cases hjq
      | flatArr _ => cases hjq
  · cases hl

end FA
