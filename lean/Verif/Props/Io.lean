import Verif.Lemmas.IoQuorums
import Verif.Ref.Decide

/-!
# C36, C37, C40: loading and saving FBASs, node registry
-/

namespace FA.Props
open FA Spec

/-! ## C36 -/

/-- C36: loading, saving and loading again gives the same FBAS (nodes and map from public keys to
IDs), for all raw FBASs, also with repeated or unknown public keys. -/
theorem C36_load_save_load (r : RawFbas) : Fbas.fromRaw (Fbas.fromRaw r).toRaw = Fbas.fromRaw r :=
  fromRaw_toRaw_fromRaw r

/-- C36: saving and loading an FBAS with different public keys, existing IDs and sorted quorum sets
gives the same nodes and, if the map from public keys to IDs is right, the same answers of
`get_node_id`. -/
theorem C36_save_load (f : Fbas) (hd : DistinctNames f) (hwf : WF f)
    (hs : ∀ n ∈ f.nodes, SortedQSet n.quorumSet) :
    (Fbas.fromRaw f.toRaw).nodes = f.nodes ∧ RegistryOk (Fbas.fromRaw f.toRaw) ∧
      (RegistryOk f → ∀ pk, (Fbas.fromRaw f.toRaw).getNodeId pk = f.getNodeId pk) := by
  have hr : RegistryOk (Fbas.fromRaw f.toRaw) := by
    intro pk i
    rw [fromRaw_toRaw_nodes hd hwf hs]
    exact rawIds_toRaw hd pk i
  refine ⟨fromRaw_toRaw_nodes hd hwf hs, hr, fun hf pk => Option.ext (fun i => ?_)⟩
  rw [hf pk i, hr pk i, fromRaw_toRaw_nodes hd hwf hs]

/-- C36: if quorum sets are not sorted, saving and loading keeps at least IDs, public keys and the
quorums. -/
theorem C36_same_quorums (f : Fbas) (hd : DistinctNames f) (hwf : WF f) :
    (∀ x, nameOf (Fbas.fromRaw f.toRaw) x = nameOf f x) ∧
      ∀ Q, IsQuorum (Fbas.fromRaw f.toRaw) Q ↔ IsQuorum f Q := by
  have hn : ∀ x, nameOf (Fbas.fromRaw f.toRaw) x = nameOf f x := by
    intro x
    have h1 := congrArg (fun l => l[x]?) (keys_fromRaw f.toRaw)
    have h2 := congrArg (fun l => l[x]?) (keys_toRaw f)
    simp only [List.getElem?_map] at h1 h2
    unfold nameOf
    rw [h2] at h1
    cases ha : (Fbas.fromRaw f.toRaw).nodes[x]? <;> cases hb : f.nodes[x]? <;>
      simp_all
  refine ⟨hn, fun Q => ?_⟩
  have hall : (Fbas.fromRaw f.toRaw).allNodes = f.allNodes := by
    unfold Fbas.allNodes
    rw [fromRaw_length, Fbas.toRaw, List.length_map]
  have hnames : names (Fbas.fromRaw f.toRaw) Q = names f Q := by
    unfold names
    exact Finset.image_congr (fun x _ => hn x)
  by_cases hQ : Q ⊆ f.allNodes
  · rw [← rawQuorum_fromRaw (toRaw_keys_distinct hd) (hall ▸ hQ), hnames, rawQuorum_toRaw hd hwf hQ]
  · exact ⟨fun h => absurd (hall ▸ h.subset_all) hQ, fun h => absurd h.subset_all hQ⟩

/-- A raw FBAS with nested quorum sets, an unknown key and unsorted lists. -/
def rawNested : RawFbas :=
  [⟨"b", ⟨2, ["c", "x", "b"], [⟨1, ["c", "a"], []⟩]⟩, none, none⟩,
   ⟨"a", ⟨1, ["a"], []⟩, some "isp", none⟩,
   ⟨"c", ⟨2, ["c", "a"], [⟨2, ["b", "a"], []⟩, ⟨1, ["x"], []⟩]⟩, none, none⟩]

/-- Concrete case: the loaded FBAS meets the hypotheses of `C36_save_load`, too. -/
example : (Fbas.fromRaw rawNested).nodes =
      [⟨"b", ⟨2, [0, 2], [⟨1, [1, 2], []⟩]⟩⟩, ⟨"a", ⟨1, [1], []⟩⟩,
       ⟨"c", ⟨2, [1, 2], [⟨1, [], []⟩, ⟨2, [0, 1], []⟩]⟩⟩] ∧
    DistinctNames (Fbas.fromRaw rawNested) ∧ WF (Fbas.fromRaw rawNested) ∧
    (∀ n ∈ (Fbas.fromRaw rawNested).nodes, SortedQSet n.quorumSet) := by
  refine ⟨by decide +kernel, ?_, wf_fromRaw _, fun n hn => ?_⟩
  · unfold DistinctNames; decide +kernel
  · obtain ⟨n', -, rfl⟩ := List.mem_map.1 hn
    exact sorted_fromRaw _ _

/-- Without the hypothesis on IDs the round trip may lose validators. -/
example : (Fbas.fromRaw (Ref.mkFbas [⟨1, [0, 7], []⟩]).toRaw).nodes =
    [⟨"n0", ⟨1, [0], []⟩⟩] := by decide +kernel

#print axioms C36_load_save_load
#print axioms C36_save_load
#print axioms C36_same_quorums

/-! ## C37 -/

/-- C37: the loaded FBAS has one node per entry, in the same order, with the same public key, and with
the quorum set of the entry, where public keys are replaced by the position of the last entry with
this key, unknown keys are dropped, and lists are sorted. -/
theorem C37_content (r : RawFbas) :
    (Fbas.fromRaw r).nodes.length = r.length ∧
      (∀ (i : ℕ) (n : RawNode), r[i]? = some n →
        ∃ node : Node, (Fbas.fromRaw r).nodes[i]? = some node ∧ node.publicKey = n.publicKey ∧
          Means (LastIndex r) n.quorumSet node.quorumSet) ∧
      ∀ pk i, (Fbas.fromRaw r).getNodeId pk = some i ↔ LastIndex r pk i := by
  refine ⟨fromRaw_length r, fun i n hn => ?_, fun pk i => rawIds_get? r pk i⟩
  refine ⟨Node.fromRaw (Fbas.rawIds r) n, ?_, rfl, ?_⟩
  · unfold Fbas.fromRaw
    dsimp only
    rw [List.getElem?_map, hn]
    rfl
  · have := means_fromRaw (m := Fbas.rawIds r) n.quorumSet
    have he : (fun p i => (Fbas.rawIds r).get? p = some i) = LastIndex r :=
      funext (fun p => funext (fun i => propext (rawIds_get? r p i)))
    rw [he] at this
    exact this

/-- C37: loaded FBASs only mention existing nodes. -/
theorem C37_well_formed (r : RawFbas) : WF (Fbas.fromRaw r) := wf_fromRaw r

/-- C37: the quorums of the loaded FBAS are, as sets of public keys, the quorums of the raw FBAS. -/
theorem C37_quorums (r : RawFbas) (hd : DistinctKeys r) (P : Finset PublicKey) :
    RawQuorum r P ↔ ∃ Q, IsQuorum (Fbas.fromRaw r) Q ∧ names (Fbas.fromRaw r) Q = P := by
  constructor
  · intro h
    obtain ⟨Q, hQ, rfl⟩ := exists_names (f := Fbas.fromRaw r) (P := P) (fun p hp => by
      obtain ⟨n, hn, rfl, -⟩ := h.2 p hp
      exact ⟨_, List.mem_map_of_mem hn, rfl⟩)
    exact ⟨Q, (rawQuorum_fromRaw hd hQ).1 h, rfl⟩
  · rintro ⟨Q, hQ, rfl⟩
    exact (rawQuorum_fromRaw hd hQ.subset_all).2 hQ

/-- With repeated keys, all mentions mean the last entry: here the first node `a` is not in any
quorum set, although its key is. -/
example : (Fbas.fromRaw [⟨"a", ⟨1, ["a"], []⟩, none, none⟩, ⟨"a", ⟨1, ["a"], []⟩, none, none⟩]).nodes
    = [⟨"a", ⟨1, [1], []⟩⟩, ⟨"a", ⟨1, [1], []⟩⟩] := by decide +kernel

/-- Concrete case. -/
example : DistinctKeys rawNested ∧ IsQuorum (Fbas.fromRaw rawNested) {1, 2} ∧
    names (Fbas.fromRaw rawNested) {1, 2} = {"a", "c"} := by
  refine ⟨?_, by decide +kernel, by decide +kernel⟩
  unfold DistinctKeys; decide +kernel

#print axioms C37_content
#print axioms C37_well_formed
#print axioms C37_quorums

/-! ## C40 -/

/-- Calls that change an FBAS. -/
inductive RegistryCall
  | addNode (node : Node)
  | addGenericNode (quorumSet : QuorumSet)
  | swapQuorumSet (nodeId : NodeId) (quorumSet : QuorumSet)

/-- The FBAS after a call. -/
def RegistryCall.run (f : Fbas) : RegistryCall → Except Panic Fbas
  | .addNode node => (f.addNode node).map Prod.snd
  | .addGenericNode q => (f.addGenericNode q).map Prod.snd
  | .swapQuorumSet i q => (f.swapQuorumSet i q).map Prod.snd

/-- The FBAS after a sequence of calls. -/
def runRegistry : Fbas → List RegistryCall → Except Panic Fbas
  | f, [] => .ok f
  | f, c :: cs =>
    match c.run f with
    | .error e => .error e
    | .ok f' => runRegistry f' cs

/-- C40: `add_node` on an FBAS with a right registry panics iff there is a node with this public key;
otherwise the new node gets the next ID and is appended, and the registry stays right. -/
theorem C40_add_node (f : Fbas) (hf : RegistryOk f) (node : Node) :
    ((∃ e, f.addNode node = .error e) ↔ ∃ n ∈ f.nodes, n.publicKey = node.publicKey) ∧
      ∀ i f', f.addNode node = .ok (i, f') →
        i = f.nodes.length ∧ f'.nodes = f.nodes ++ [node] ∧ RegistryOk f' := by
  have hnone : f.pkToId.get? node.publicKey = none ↔
      ∀ n ∈ f.nodes, n.publicKey ≠ node.publicKey := by
    constructor
    · intro h n hn hp
      obtain ⟨i, hi, rfl⟩ := List.getElem_of_mem hn
      have := (hf node.publicKey i).2 ⟨_, List.getElem?_eq_getElem hi, hp⟩
      unfold Fbas.getNodeId at this
      rw [h] at this; cases this
    · intro h
      cases hg : f.pkToId.get? node.publicKey with
      | none => rfl
      | some i =>
        obtain ⟨n, hn, hp⟩ := (hf node.publicKey i).1 hg
        exact absurd hp (h n (List.mem_of_getElem? hn))
  constructor
  · unfold Fbas.addNode
    dsimp only
    cases hg : f.pkToId.get? node.publicKey with
    | none =>
      have := hnone.1 hg
      constructor
      · rintro ⟨e, h⟩; cases h
      · rintro ⟨n, hn, hp⟩; exact absurd hp (this n hn)
    | some i =>
      refine ⟨fun _ => ?_, fun _ => ⟨_, rfl⟩⟩
      obtain ⟨n, hn, hp⟩ := (hf node.publicKey i).1 hg
      exact ⟨n, List.mem_of_getElem? hn, hp⟩
  · intro i f' h
    unfold Fbas.addNode at h
    dsimp only at h
    cases hg : f.pkToId.get? node.publicKey with
    | some j => rw [hg] at h; cases h
    | none =>
      rw [hg] at h
      have h' := Except.ok.inj h
      obtain rfl := congrArg Prod.fst h'
      obtain rfl := congrArg Prod.snd h'
      refine ⟨rfl, rfl, fun pk j => ?_⟩
      unfold Fbas.getNodeId
      dsimp only
      rw [Map.get?_insert]
      by_cases hpk : pk = node.publicKey
      · subst hpk
        rw [if_pos rfl]
        constructor
        · intro hj
          obtain rfl := Option.some.inj hj
          exact ⟨node, by simp, rfl⟩
        · rintro ⟨n, hn, hp⟩
          by_cases hlt : j < f.nodes.length
          · rw [List.getElem?_append_left hlt] at hn
            exact absurd hp (hnone.1 hg n (List.mem_of_getElem? hn))
          · have := (List.getElem?_eq_some_iff.1 hn).1
            rw [List.length_append, List.length_singleton] at this
            exact congrArg _ (Nat.le_antisymm (Nat.le_of_not_lt hlt) (Nat.lt_succ_iff.1 this))
      · rw [if_neg hpk]
        rw [show f.pkToId.get? pk = f.getNodeId pk from rfl, hf pk j]
        constructor
        · rintro ⟨n, hn, hp⟩
          exact ⟨n, by rw [List.getElem?_append_left (List.getElem?_eq_some_iff.1 hn).1]; exact hn, hp⟩
        · rintro ⟨n, hn, hp⟩
          by_cases hlt : j < f.nodes.length
          · rw [List.getElem?_append_left hlt] at hn
            exact ⟨n, hn, hp⟩
          · have hjl := (List.getElem?_eq_some_iff.1 hn).1
            rw [List.length_append, List.length_singleton] at hjl
            obtain rfl : j = f.nodes.length :=
              Nat.le_antisymm (Nat.lt_succ_iff.1 hjl) (Nat.le_of_not_lt hlt)
            simp only [List.getElem?_concat_length, Option.some.injEq] at hn
            subst hn
            exact absurd hp.symm hpk

/-- C40: `swap_quorum_set` panics iff the node does not exist; otherwise it returns the stored quorum
set, stores the new one, and changes nothing else. -/
theorem C40_swap_quorum_set (f : Fbas) (i : NodeId) (q : QuorumSet) :
    ((∃ e, f.swapQuorumSet i q = .error e) ↔ f.nodes.length ≤ i) ∧
      ∀ old f', f.swapQuorumSet i q = .ok (old, f') →
        f.getQuorumSet i = some old ∧ f'.getQuorumSet i = some q ∧
        (∀ j, j ≠ i → f'.getQuorumSet j = f.getQuorumSet j) ∧
        f'.nodes.map Node.publicKey = f.nodes.map Node.publicKey ∧
        (∀ pk, f'.getNodeId pk = f.getNodeId pk) ∧ (RegistryOk f → RegistryOk f') := by
  by_cases hi : i < f.nodes.length
  · have hok : f.swapQuorumSet i q = .ok (f.nodes[i].quorumSet,
        { f with nodes := f.nodes.set i { f.nodes[i] with quorumSet := q } }) := by
      unfold Fbas.swapQuorumSet
      rw [List.getElem?_eq_getElem hi]
    refine ⟨⟨fun ⟨e, h⟩ => (by rw [hok] at h; cases h), fun h => absurd hi (Nat.not_lt.2 h)⟩, ?_⟩
    intro old f' h
    rw [hok] at h
    have h' := Except.ok.inj h
    obtain rfl := congrArg Prod.fst h'
    obtain rfl := congrArg Prod.snd h'
    have hkeys : (f.nodes.set i { f.nodes[i] with quorumSet := q }).map Node.publicKey =
        f.nodes.map Node.publicKey := by
      rw [List.map_set]
      have : (f.nodes.map Node.publicKey)[i]'(by simpa using hi) = f.nodes[i].publicKey := by simp
      rw [show ({ f.nodes[i] with quorumSet := q } : Node).publicKey =
        (f.nodes.map Node.publicKey)[i]'(by simpa using hi) from this.symm, List.set_getElem_self]
    refine ⟨?_, ?_, ?_, hkeys, fun pk => rfl, fun hr pk j => ?_⟩
    · unfold Fbas.getQuorumSet; rw [List.getElem?_eq_getElem hi]; rfl
    · unfold Fbas.getQuorumSet; rw [List.getElem?_set_self hi]; rfl
    · intro j hj
      unfold Fbas.getQuorumSet; rw [List.getElem?_set_ne (Ne.symm hj)]
    · have hkey : ∀ l : List Node, (∃ n, l[j]? = some n ∧ n.publicKey = pk) ↔
          (l.map Node.publicKey)[j]? = some pk := by
        intro l
        rw [List.getElem?_map, Option.map_eq_some_iff]
      rw [hkey]
      dsimp only
      rw [hkeys, ← hkey]
      exact hr pk j
  · have herr : f.swapQuorumSet i q = .error .outOfBounds := by
      unfold Fbas.swapQuorumSet
      rw [List.getElem?_eq_none (Nat.le_of_not_lt hi)]
    refine ⟨⟨fun _ => Nat.le_of_not_lt hi, fun _ => ⟨_, herr⟩⟩, fun old f' h => ?_⟩
    rw [herr] at h; cases h

/-- C40: after every sequence of calls on a new FBAS, `get_node_id(pk) = Some(i)` iff node `i` has the
public key `pk`; in particular public keys are different. -/
theorem C40_registry (calls : List RegistryCall) (f : Fbas)
    (h : runRegistry Fbas.new calls = .ok f) : RegistryOk f ∧ DistinctNames f := by
  have hgen : ∀ (calls : List RegistryCall) (g f : Fbas), RegistryOk g →
      runRegistry g calls = .ok f → RegistryOk f := by
    intro calls
    induction calls with
    | nil => intro g f hg h; rw [← Except.ok.inj h]; exact hg
    | cons c cs ih =>
      intro g f hg h
      rw [runRegistry] at h
      cases hc : c.run g with
      | error e => rw [hc] at h; cases h
      | ok g' =>
        rw [hc] at h
        refine ih g' f ?_ h
        cases c with
        | addNode node =>
          cases hr : g.addNode node with
          | error e => rw [RegistryCall.run, hr] at hc; cases hc
          | ok p =>
            rw [RegistryCall.run, hr] at hc
            rw [← Except.ok.inj hc]
            exact ((C40_add_node g hg node).2 p.1 p.2 hr).2.2
        | addGenericNode q =>
          cases hr : g.addGenericNode q with
          | error e => rw [RegistryCall.run, hr] at hc; cases hc
          | ok p =>
            rw [RegistryCall.run, hr] at hc
            rw [← Except.ok.inj hc]
            exact ((C40_add_node g hg _).2 p.1 p.2 hr).2.2
        | swapQuorumSet i q =>
          cases hr : g.swapQuorumSet i q with
          | error e => rw [RegistryCall.run, hr] at hc; cases hc
          | ok p =>
            rw [RegistryCall.run, hr] at hc
            rw [← Except.ok.inj hc]
            exact ((C40_swap_quorum_set g i q).2 p.1 p.2 hr).2.2.2.2.2 hg
  have hr : RegistryOk f := hgen calls Fbas.new f (fun pk i => by
    constructor
    · intro h; cases h
    · rintro ⟨n, hn, -⟩; simp [Fbas.new] at hn) h
  refine ⟨hr, ?_⟩
  unfold DistinctNames
  rw [List.nodup_iff_injective_get]
  intro a b hab
  have ha : a.1 < f.nodes.length := by have := a.2; simpa using this
  have hb : b.1 < f.nodes.length := by have := b.2; simpa using this
  simp only [List.get_eq_getElem, List.getElem_map] at hab
  have h1 := (hr _ a.1).2 ⟨_, List.getElem?_eq_getElem ha, rfl⟩
  have h2 := (hr _ b.1).2 ⟨_, List.getElem?_eq_getElem hb, rfl⟩
  rw [hab, h2] at h1
  exact Fin.ext (Option.some.inj h1).symm

/-- C40: `add_generic_node` is `add_node` with the name `n` followed by the ID; it panics iff this name
is taken. -/
theorem C40_add_generic_node (f : Fbas) (hf : RegistryOk f) (q : QuorumSet) :
    ((∃ e, f.addGenericNode q = .error e) ↔
        ∃ n ∈ f.nodes, n.publicKey = "n" ++ toString f.nodes.length) ∧
      ∀ i f', f.addGenericNode q = .ok (i, f') →
        i = f.nodes.length ∧
        f'.nodes = f.nodes ++ [⟨"n" ++ toString f.nodes.length, q⟩] ∧ RegistryOk f' :=
  C40_add_node f hf _

/-- C40: `new_generic_unconfigured` never panics; the nodes have different public keys and empty
quorum sets. -/
theorem C40_new_generic_unconfigured (n : ℕ) :
    ∃ f, Fbas.newGenericUnconfigured n = .ok f ∧
      f.nodes = (List.range n).map (fun i => ⟨"n" ++ toString i, QuorumSet.empty⟩) ∧
      RegistryOk f := by
  have key : ∀ (k m : ℕ) (g : Fbas), RegistryOk g →
      g.nodes = (List.range m).map (fun i => (⟨"n" ++ toString i, QuorumSet.empty⟩ : Node)) →
      ∃ f, Fbas.addGenericUnconfigured k g = .ok f ∧
        f.nodes = (List.range (m + k)).map
          (fun i => (⟨"n" ++ toString i, QuorumSet.empty⟩ : Node)) ∧ RegistryOk f := by
    intro k
    induction k with
    | zero => intro m g hg hn; exact ⟨g, rfl, hn, hg⟩
    | succ k ih =>
      intro m g hg hn
      have hl : g.nodes.length = m := by rw [hn]; simp
      obtain ⟨h1, h2⟩ := C40_add_generic_node g hg QuorumSet.empty
      cases hr : g.addGenericNode QuorumSet.empty with
      | error e =>
        obtain ⟨n', hn', hp⟩ := h1.1 ⟨e, hr⟩
        rw [hn] at hn'
        obtain ⟨i, hi, rfl⟩ := List.mem_map.1 hn'
        have := genericNodeName_inj (i := i) (j := g.nodes.length) hp
        rw [List.mem_range] at hi
        omega
      | ok p =>
        obtain ⟨-, h4, h5⟩ := h2 p.1 p.2 hr
        rw [Fbas.addGenericUnconfigured, hr]
        obtain ⟨f, hf1, hf2, hf3⟩ := ih (m + 1) p.2 h5 (by
          rw [h4, hl, hn, List.range_succ, List.map_append]; rfl)
        exact ⟨f, hf1, by rw [hf2]; congr 2; omega, hf3⟩
  obtain ⟨f, h1, h2, h3⟩ := key n 0 Fbas.new (fun pk i => by
    constructor
    · intro h; cases h
    · rintro ⟨n, hn, -⟩; simp [Fbas.new] at hn) rfl
  exact ⟨f, h1, by rw [h2, Nat.zero_add], h3⟩

/-- Concrete case. -/
example : (runRegistry Fbas.new [.addNode ⟨"x", ⟨1, [0], []⟩⟩, .addGenericNode ⟨2, [0, 1], []⟩,
    .swapQuorumSet 0 ⟨1, [1], []⟩]).map Fbas.nodes =
      .ok [⟨"x", ⟨1, [1], []⟩⟩, ⟨"n1", ⟨2, [0, 1], []⟩⟩] := Ref.ok_of (by decide +kernel)

/-- A generic node cannot be added if its name is taken by an earlier node. -/
example : (runRegistry Fbas.new [.addNode ⟨"n1", ⟨1, [0], []⟩⟩,
    .addGenericNode ⟨2, [0, 1], []⟩]).map Fbas.nodes = .error .explicit :=
  Ref.error_of (by decide +kernel)

#print axioms C40_add_node
#print axioms C40_swap_quorum_set
#print axioms C40_registry
#print axioms C40_add_generic_node
#print axioms C40_new_generic_unconfigured

end FA.Props
