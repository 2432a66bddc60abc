import Verif.Lemmas.Json
import Verif.Props.Io
import Verif.Props.IoGroupings

/-!
# C62, C63: JSON documents
-/

namespace FA.Props
open FA Spec

/-! ## C62 -/

/-- C62: a document is accepted iff it describes a list of nodes (`DescribesFbas`), and then the loaded
FBAS is the one for these nodes (see C37 for its content); all other documents are rejected. -/
theorem C62_nodes (j : Json) :
    (∀ f, Fbas.fromJson j = .ok f ↔ ∃ r, DescribesFbas j r ∧ f = Fbas.fromRaw r) ∧
      ((∀ r, ¬ DescribesFbas j r) → Fbas.fromJson j = .error .explicit) := by
  unfold Fbas.fromJson
  cases h : RawFbas.fromJson j with
  | none =>
    have hn : ∀ r, ¬ DescribesFbas j r := fun r hr => by
      rw [fbas_fromJson_iff.2 hr] at h; cases h
    refine ⟨fun f => ?_, fun _ => rfl⟩
    simp only [reduceCtorEq, false_iff, not_exists, not_and]
    exact fun r hr => absurd hr (hn r)
  | some r =>
    have hr := fbas_fromJson_iff.1 h
    refine ⟨fun f => ?_, fun hn => absurd hr (hn r)⟩
    constructor
    · intro hf
      exact ⟨r, hr, (Except.ok.inj hf).symm⟩
    · rintro ⟨r', hr', rfl⟩
      rw [fbas_fromJson_iff.2 hr'] at h
      rw [Option.some.inj h]

/-- C62: a document describes at most one list of nodes. -/
theorem C62_unambiguous (j : Json) (r r' : RawFbas) (h : DescribesFbas j r)
    (h' : DescribesFbas j r') : r = r' := by
  rw [← fbas_fromJson_iff] at h h'
  rw [h] at h'
  exact Option.some.inj h'

/-- C62 for organizations. -/
theorem C62_organizations (j : Json) (f : Fbas) :
    (∀ gs, DescribesGroupings j gs →
      Groupings.organizationsFromJson j f = Groupings.fromRaw gs f) ∧
      ((∀ gs, ¬ DescribesGroupings j gs) →
        Groupings.organizationsFromJson j f = .error .explicit) := by
  unfold Groupings.organizationsFromJson
  refine ⟨fun gs h => by rw [groupings_fromJson_iff.2 h], fun h => ?_⟩
  cases hg : j.vec? RawGrouping.fromJson with
  | none => rfl
  | some gs => exact absurd (groupings_fromJson_iff.1 hg) (h gs)

theorem oneEntry_perm {l l' : List (String × Json)} (hp : l.Perm l') {name : String} {j : Json}
    (h : OneEntry l name j) : OneEntry l' name j := by
  obtain ⟨pre, post, rfl, hn⟩ := h
  obtain ⟨pre', post', rfl⟩ := List.append_of_mem (hp.subset (show (name, j) ∈ _ by simp))
  refine ⟨pre', post', rfl, fun e he => hn e ?_⟩
  have h1 : (pre ++ post).Perm (pre' ++ post') := by
    have := (List.perm_middle.symm.trans hp).trans List.perm_middle
    exact this.cons_inv
  exact h1.symm.subset he

theorem noEntry_perm {l l' : List (String × Json)} (hp : l.Perm l') {name : String}
    (h : NoEntry l name) : NoEntry l' name := fun e he => h e (hp.symm.subset he)

/-- C62: the order of the entries of a node does not matter. -/
theorem C62_entry_order (l l' : List (String × Json)) (hp : l.Perm l') (n : RawNode)
    (h : DescribesNode (.obj l) n) : DescribesNode (.obj l') n := by
  rcases h with ⟨_, he, h1, h2, h3, h4⟩ | ⟨_, _, _, he, _⟩
  · obtain rfl := Json.obj.inj he
    refine .inl ⟨l', rfl, oneEntry_perm hp h1, ?_, ?_, ?_⟩
    · exact h2.imp (fun h => ⟨noEntry_perm hp h.1, h.2⟩)
        (fun ⟨j, h, h'⟩ => ⟨j, oneEntry_perm hp h, h'⟩)
    · exact h3.imp (fun h => ⟨noEntry_perm hp h.1, h.2⟩)
        (fun ⟨j, h, h'⟩ => ⟨j, oneEntry_perm hp h, h'⟩)
    · exact h4.imp (fun h => ⟨noEntry_perm hp h.1, h.2⟩)
        (fun ⟨j, h, h'⟩ => ⟨j, oneEntry_perm hp h, h'⟩)
  · cases he

/-- C62: additional entries of a node (the stellarbeat.org format has many) do not matter. -/
theorem C62_additional_entries (l : List (String × Json)) (name : String) (j : Json)
    (hn : name ∉ ["publicKey", "quorumSet", "isp", "geoData"]) :
    RawNode.fromJson (.obj ((name, j) :: l)) = RawNode.fromJson (.obj l) := by
  simp only [List.mem_cons, List.not_mem_nil, or_false, not_or] at hn
  rw [RawNode.fromJson, RawNode.fromJson, nodeEntries_cons, if_neg hn.1, if_neg hn.2.1,
    if_neg hn.2.2.1, if_neg hn.2.2.2]

/-- C62: a node without a quorum set is accepted; it is not part of any quorum. -/
theorem C62_missing_quorum_set (js : List Json) (f : Fbas) (hf : Fbas.fromJson (.arr js) = .ok f)
    (x : ℕ) (l : List (String × Json)) (hx : js[x]? = some (.obj l)) (hl : NoEntry l "quorumSet")
    (Q : NodeSet) (hQ : IsQuorum f Q) : x ∉ Q := by
  intro hxQ
  obtain ⟨r, ⟨js', he, hr⟩, rfl⟩ := ((C62_nodes _).1 f).1 hf
  obtain rfl := Json.arr.inj he
  obtain ⟨q, ⟨node, hn, hq⟩, hs⟩ := hQ.2 x hxQ
  rw [forall₂_index] at hr
  obtain ⟨n, hrn⟩ : ∃ n, r[x]? = some n := by
    rw [← Option.isSome_iff_exists, List.getElem?_eq_some_iff.1 hx |>.1 |> fun h =>
      List.getElem?_eq_getElem (hr.1 ▸ h)]
    rfl
  rcases hr.2 x _ n hx hrn with ⟨l', he, -, h2, -⟩ | ⟨_, _, _, he, _⟩
  · obtain rfl := Json.obj.inj he
    rcases h2 with ⟨-, h2⟩ | ⟨j, h2, -⟩
    · unfold Fbas.fromRaw at hn
      dsimp only at hn
      rw [List.getElem?_map, hrn] at hn
      obtain rfl := Option.some.inj hn
      obtain ⟨_, _, _, _, _, _, _, hpos, _⟩ := hs
      rw [← hq] at hpos
      unfold Node.fromRaw at hpos
      rw [h2, QuorumSet.fromRaw] at hpos
      simp at hpos
    · exact h2.not_none hl
  · cases he

/-- Concrete case: a document in which fields are missing, unknown, or in another order. -/
def jsonThree : Json := .arr [
  .obj [("quorumSet", .obj [("validators", strings ["b", "a"]), ("hashKey", .str "x"),
      ("threshold", .nat 1), ("innerQuorumSets", .arr [.arr [.nat 1, strings ["c"]]])]),
    ("active", .bool true), ("publicKey", .str "a"), ("isp", .null)],
  .obj [("publicKey", .str "b"), ("geoData", .obj [("countryName", .str "Germany")])],
  .arr [.str "c", .arr [.nat 2, strings ["a", "c"], .arr []], .str "ISP", .null]]

example : (Fbas.fromJson jsonThree).map (fun f => f.nodes) =
    .ok [⟨"a", ⟨1, [0, 1], [⟨1, [2], []⟩]⟩⟩, ⟨"b", ⟨0, [], []⟩⟩, ⟨"c", ⟨2, [0, 2], []⟩⟩] ∧
    (Fbas.fromJson (.arr [.obj [("publicKey", .str "a"), ("publicKey", .str "b")]])).map
      (fun f => f.nodes) = .error .explicit ∧
    (Fbas.fromJson (.arr [.obj [("publicKey", .str "a"), ("quorumSet", .null)]])).map
      (fun f => f.nodes) = .error .explicit :=
  ⟨Ref.ok_of (by decide +kernel), Ref.error_of (by decide +kernel), Ref.error_of (by decide +kernel)⟩

#print axioms C62_nodes
#print axioms C62_unambiguous
#print axioms C62_organizations
#print axioms C62_entry_order
#print axioms C62_additional_entries
#print axioms C62_missing_quorum_set

/-! ## C63 -/

/-- C63: writing and reading nodes gives the same nodes, including ISP and country. -/
theorem C63_raw_round_trip (r : RawFbas) (h : ∀ n ∈ r, Fits n.quorumSet) :
    RawFbas.fromJson (RawFbas.toJson r) = some r := fbas_fromJson_iff.2 (describesFbas_toJson h)

theorem describes_fits {j : Json} {q : RawQuorumSet} (h : DescribesQSet j q) : Fits q := by
  induction h with
  | @obj l t vs js qs _ h64 _ _ hlen _ ih =>
    refine .intro h64 (fun q hq => ?_)
    obtain ⟨i, hi, rfl⟩ := List.mem_iff_getElem.1 hq
    exact ih i (js[i]'(hlen ▸ hi)) _ (by simp) (by simp)
  | flatObj _ h64 => exact .intro h64 (by simp)
  | @arr t vs js qs h64 hlen _ ih =>
    refine .intro h64 (fun q hq => ?_)
    obtain ⟨i, hi, rfl⟩ := List.mem_iff_getElem.1 hq
    exact ih i (js[i]'(hlen ▸ hi)) _ (by simp) (by simp)
  | flatArr h64 => exact .intro h64 (by simp)

/-- All thresholds of `q` fit into 64 bits (always the case in Rust). -/
inductive FitsQ : QuorumSet → Prop
  | intro {t : ℕ} {vs : List NodeId} {qs : List QuorumSet} (ht : t < 2 ^ 64)
      (hin : ∀ q ∈ qs, FitsQ q) : FitsQ ⟨t, vs, qs⟩

theorem fits_toRaw (f : Fbas) {q : QuorumSet} (h : FitsQ q) : Fits (q.toRaw f) := by
  induction h with
  | @intro t vs qs ht _ ih =>
    rw [QuorumSet.toRaw, QuorumSet.toRawList_eq]
    refine .intro ht (fun q hq => ?_)
    obtain ⟨q', hq', rfl⟩ := List.mem_map.1 hq
    exact ih q' hq'

theorem fitsQ_fromRaw (m : Map PublicKey NodeId) {q : RawQuorumSet} (h : Fits q) :
    FitsQ (QuorumSet.fromRaw m q) := by
  induction h with
  | @intro t vs qs ht _ ih =>
    rw [QuorumSet.fromRaw, QuorumSet.fromRawList_eq]
    refine .intro ht (fun q hq => ?_)
    obtain ⟨q', hq', rfl⟩ := List.mem_map.1 ((sortQs_perm _).mem_iff.1 hq)
    exact ih q' hq'

/-- C63: writing an FBAS and reading it has the effect described by C36 for the raw structures. -/
theorem C63_save_load (f : Fbas) (h : ∀ n ∈ f.nodes, FitsQ n.quorumSet) :
    Fbas.fromJson f.toJson = .ok (Fbas.fromRaw f.toRaw) := by
  unfold Fbas.fromJson Fbas.toJson
  rw [C63_raw_round_trip]
  intro n hn
  obtain ⟨n', hn', rfl⟩ := List.mem_map.1 hn
  exact fits_toRaw f (h n' hn')

/-- C63: reading, writing and reading again gives the same FBAS, for every accepted document. -/
theorem C63_load_save_load (j : Json) (f : Fbas) (h : Fbas.fromJson j = .ok f) :
    Fbas.fromJson f.toJson = .ok f := by
  obtain ⟨r, ⟨js, -, hr⟩, rfl⟩ := ((C62_nodes j).1 f).1 h
  rw [C63_save_load, C36_load_save_load]
  intro n hn
  obtain ⟨n', hn', rfl⟩ := List.mem_map.1 hn
  refine fitsQ_fromRaw _ ?_
  obtain ⟨i, hi, rfl⟩ := List.mem_iff_getElem.1 hn'
  rw [forall₂_index] at hr
  rcases hr.2 i (js[i]'(hr.1 ▸ hi)) r[i] (by simp) (by simp) with
    ⟨l, -, -, h2, -⟩ | ⟨_, _, _, -, h2, -⟩
  · rcases h2 with ⟨-, h2⟩ | ⟨j', -, h2⟩
    · rw [h2]; exact .intro (by decide) (by simp)
    · exact describes_fits h2
  · exact describes_fits h2

/-- C63: ISP and country are not part of an FBAS; they are lost. -/
theorem C63_no_annotations (f : Fbas) : ∀ n ∈ f.toRaw, n.isp = none ∧ n.geoData = none := by
  intro n hn
  obtain ⟨n', -, rfl⟩ := List.mem_map.1 hn
  exact ⟨rfl, rfl⟩

/-- C63 for organizations: reading, writing and reading again gives the same groupings. -/
theorem C63_organizations (j : Json) (f : Fbas) (hf : RegistryOk f) (g : Groupings)
    (h : Groupings.organizationsFromJson j f = .ok g) :
    ∃ j', g.toJson f = .ok j' ∧ Groupings.organizationsFromJson j' f = .ok g := by
  have hd : ∃ gs, DescribesGroupings j gs := by
    by_contra hn
    push Not at hn
    rw [(C62_organizations j f).2 hn] at h
    cases h
  obtain ⟨gs, hgs⟩ := hd
  rw [(C62_organizations j f).1 gs hgs] at h
  refine ⟨_, by unfold Groupings.toJson; rw [C54_save f hf gs g h], ?_⟩
  rw [(C62_organizations _ f).1 _ (describesGroupings_toJson _), ← h]
  unfold Groupings.fromRaw
  congr 1
  rw [List.map_map]
  refine List.map_congr_left (fun raw _ => ?_)
  show Grouping.mk _ _ = Grouping.mk _ _
  congr 1
  show (raw.validators.filter _).filterMap f.pkToId.get? = raw.validators.filterMap f.pkToId.get?
  induction raw.validators with
  | nil => rfl
  | cons p vs ih =>
    cases hp : f.pkToId.get? p with
    | none =>
      rw [List.filter_cons_of_neg (by rw [show f.getNodeId p = none from hp]; simp),
        List.filterMap_cons_none hp, ih]
    | some i =>
      rw [List.filter_cons_of_pos (by rw [show f.getNodeId p = some i from hp]; rfl),
        List.filterMap_cons_some hp, List.filterMap_cons_some hp, ih]

/-- Concrete case. -/
example : (∃ f, Fbas.fromJson jsonThree = .ok f) ∧
    (Fbas.fromJson jsonThree).map (fun f => RawFbas.fromJson f.toJson |>.map (·.map RawNode.publicKey))
      = .ok (some ["a", "b", "c"]) := by
  refine ⟨?_, Ref.ok_of (by decide +kernel)⟩
  have : ((Fbas.fromJson jsonThree).map (fun f => f.nodes.length)) = .ok 3 :=
    Ref.ok_of (by decide +kernel)
  cases h : Fbas.fromJson jsonThree with
  | ok f => exact ⟨f, rfl⟩
  | error e => rw [h] at this; cases this

#print axioms C63_raw_round_trip
#print axioms C63_save_load
#print axioms C63_load_save_load
#print axioms C63_no_annotations
#print axioms C63_organizations

end FA.Props
