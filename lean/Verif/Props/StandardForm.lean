import Verif.Lemmas.StandardFormIdem
import Verif.Ref.Decide

/-!
# C38, C39: standard form
-/

namespace FA.Props
open FA Spec QuorumSet

/-! ## C38 -/

/-- C38: the standard form is the FBAS loaded from the nodes that are relevant (in a quorum, and
mutually reachable with the nodes of some quorum), sorted by public key, in whose quorum sets all
other nodes and then empty inner quorum sets are left out. In particular it never fails, and it does
not depend on the order of strongly connected components. -/
theorem C38_content (env : Env) (f : Fbas) (hd : DistinctNames f) (hwf : WF f) :
    f.toStandardForm env = .ok (Fbas.fromRaw (Fbas.sortByKey
      (restrictFbas (RawRelevant f.toRaw) f.toRaw))) := toStandardForm_eq env hd hwf

/-- C38: the standard form is the same for all FBASs with the same content, independent of the order
of nodes and of entries in quorum sets. -/
theorem C38_order (env env' : Env) (f f' : Fbas) (hd : DistinctNames f) (hwf : WF f) (hwf' : WF f')
    (h : Reordered f.toRaw f'.toRaw) : ∃ g, f.toStandardForm env = .ok g ∧
      f'.toStandardForm env' = .ok g := by
  have hk := toRaw_keys_distinct hd
  have hd' : DistinctNames f' := by
    have := h.keys.nodup_iff.1 hk
    rwa [keys_toRaw] at this
  refine ⟨_, toStandardForm_eq env hd hwf, ?_⟩
  rw [toStandardForm_eq env' hd' hwf']
  have hr : RawRelevant f'.toRaw = RawRelevant f.toRaw := funext (fun p => propext (h.relevant p).symm)
  rw [hr]
  congr 1
  exact (fromRaw_sortByKey (restrictFbas_distinct hk) (Reordered.restrict hk h)).symm

/-- C38: the standard form is the same for all orders of the nodes, and of the entries of quorum
sets, in the JSON that is loaded. Quorum sets may list unknown nodes. -/
theorem C38_order_json (env env' : Env) (r r' : RawFbas) (hd : DistinctKeys r)
    (h : Reordered r r') : ∃ g, (Fbas.fromRaw r).toStandardForm env = .ok g ∧
      (Fbas.fromRaw r').toStandardForm env' = .ok g := by
  obtain ⟨l, hp, hf⟩ := h
  rw [← fromRaw_forall₂ hf]
  exact C38_order env env' _ _ (distinct_fromRaw hd) (wf_fromRaw _) (wf_fromRaw _)
    (toRaw_fromRaw_perm hd hp)

/-- C38: the standard form is unchanged by applying it again iff all of its nodes are relevant in
it. -/
theorem C38_idempotent_iff (env env' : Env) (f g : Fbas) (hd : DistinctNames f) (hwf : WF f)
    (h : f.toStandardForm env = .ok g) :
    g.toStandardForm env' = .ok g ↔ ∀ x < g.nodes.length,
      (∃ Q, IsQuorum g Q ∧ x ∈ Q) ∧ ∃ Q, IsQuorum g Q ∧ ∀ y ∈ Q, Reaches g x y ∧ Reaches g y x := by
  rw [toStandardForm_eq env hd hwf] at h
  obtain rfl := Except.ok.inj h
  change (standardForm f).toStandardForm env' = .ok (standardForm f) ↔
    ∀ x < (standardForm f).nodes.length, _
  have hgd := standardForm_distinct hd
  have hgw := standardForm_wf f
  constructor
  · intro hi x hx
    have hlen : ((standardForm f).relevantNodes env').card = (standardForm f).nodes.length := by
      unfold Fbas.toStandardForm at hi
      obtain ⟨f₁, h1, h2⟩ := Fbas.shrunken_ok (standardForm f) ((standardForm f).relevantNodes env')
      rw [h1] at hi
      have := congrArg (fun f => f.nodes.length) (Except.ok.inj hi)
      rw [fromRaw_length, (sortByKey_perm _).length_eq, Fbas.toRaw, List.length_map, h2.len] at this
      exact this
    have hsub : (standardForm f).relevantNodes env' ⊆ Finset.range (standardForm f).nodes.length := by
      intro y hy
      obtain ⟨⟨Q, hQ, hyQ⟩, -⟩ := (C08_relevant_iff env' _ hgw y).1 hy
      exact hQ.subset_all hyQ
    have := Finset.eq_of_subset_of_card_le hsub (by rw [hlen, Finset.card_range])
    exact (C08_relevant_iff env' _ hgw x).1 (this ▸ Finset.mem_range.2 hx)
  · intro hall
    rw [toStandardForm_eq env' hgd hgw]
    congr 1
    refine standardForm_idem hd (fun p hp => ?_)
    obtain ⟨n, hn, rfl⟩ := RawRelevant.node hp
    obtain ⟨n', hn', hs⟩ := (standardForm_raw hd).symm.mem
      (mem_restrictFbas.2 ⟨n, hn, hp, rfl⟩)
    obtain ⟨m, hm, rfl⟩ := List.mem_map.1 hn'
    obtain ⟨x, hx, rfl⟩ := List.getElem_of_mem hm
    have hname : nameOf (standardForm f) x = n.publicKey := by
      unfold nameOf
      rw [List.getElem?_eq_getElem hx]
      exact hs.1.symm
    rw [← hname, relevant_toRaw env' hgd hgw hx, C08_relevant_iff env' _ hgw]
    exact hall x hx

/-- C38 (partial): applying the standard form twice changes nothing if relevant nodes list only
relevant nodes. Missing: FBASs where relevant nodes list other nodes; there it is wrong, see
`C38_idempotent_counterexample`. -/
theorem C38_idempotent_partial (env env' : Env) (f g : Fbas) (hd : DistinctNames f) (hwf : WF f)
    (hc : ∀ x y, x ∈ f.relevantNodes env → Trusts f x y → y ∈ f.relevantNodes env)
    (h : f.toStandardForm env = .ok g) : g.toStandardForm env' = .ok g := by
  rw [toStandardForm_eq env hd hwf] at h
  obtain rfl := Except.ok.inj h
  change (standardForm f).toStandardForm env' = .ok (standardForm f)
  rw [toStandardForm_eq env' (standardForm_distinct hd) (standardForm_wf f)]
  congr 1
  refine standardForm_idem hd (fun p hp => ?_)
  rw [(standardForm_raw hd).relevant]
  refine relevant_restrict (fun a b ha hab => ?_) hp
  obtain ⟨x, y, hx, rfl, rfl, ht⟩ := (rawTrusts_toRaw hwf).1 hab
  rw [relevant_toRaw env hd hwf hx] at ha
  rw [relevant_toRaw env hd hwf (hwf _ _ ht)]
  exact hc x y ha ht

/-- Node `a` trusts `c` to be safe from itself; `c` can never be satisfied, but connects `a` and
`b` to a strongly connected component. -/
def rawIdem : RawFbas :=
  [⟨"a", ⟨1, ["a", "c"], []⟩, none, none⟩, ⟨"b", ⟨1, ["a"], []⟩, none, none⟩,
   ⟨"c", ⟨5, ["b"], []⟩, none, none⟩]

/-- C38: the standard form of a standard form can differ: after leaving out the unsatisfiable node
`c`, the node `b` is no longer relevant. -/
theorem C38_idempotent_counterexample : ∃ f, DistinctNames f ∧ WF f ∧ ∀ env env', ∃ g g',
    f.toStandardForm env = .ok g ∧ g.toStandardForm env' = .ok g' ∧
      g.nodes.map Node.publicKey = ["a", "b"] ∧ g'.nodes.map Node.publicKey = ["a"] := by
  have hd : DistinctNames (Fbas.fromRaw rawIdem) :=
    distinct_fromRaw (by unfold DistinctKeys; decide +kernel)
  refine ⟨Fbas.fromRaw rawIdem, hd, wf_fromRaw _, fun env env' => ?_⟩
  have h1 := C38_content (Ref.refEnv 3) _ hd (wf_fromRaw _)
  refine ⟨standardForm (Fbas.fromRaw rawIdem), standardForm (standardForm (Fbas.fromRaw rawIdem)),
    C38_content env _ hd (wf_fromRaw _),
    C38_content env' _ (standardForm_distinct hd) (standardForm_wf _), ?_⟩
  have h2 := C38_content (Ref.refEnv 3) _ (standardForm_distinct hd) (standardForm_wf _)
  have h3 : ((Fbas.fromRaw rawIdem).toStandardForm (Ref.refEnv 3)).map
      (fun g => g.nodes.map Node.publicKey) = .ok ["a", "b"] := Ref.ok_of (by decide +kernel)
  have h4 : ((Fbas.fromRaw rawIdem).toStandardForm (Ref.refEnv 3) >>= fun g =>
      g.toStandardForm (Ref.refEnv 3)).map (fun g => g.nodes.map Node.publicKey) = .ok ["a"] :=
    Ref.ok_of (by decide +kernel)
  rw [h1] at h3 h4
  change (Fbas.toStandardForm (Ref.refEnv 3) (standardForm (Fbas.fromRaw rawIdem))).map _ = _ at h4
  rw [h2] at h4
  exact ⟨Except.ok.inj h3, Except.ok.inj h4⟩

/-- An FBAS with unsorted nodes, a nested quorum set, and an irrelevant node `c`. -/
def rawStd : RawFbas :=
  [⟨"d", ⟨2, ["d", "a", "b"], []⟩, none, none⟩, ⟨"b", ⟨2, ["a", "d", "b"], []⟩, none, none⟩,
   ⟨"c", ⟨1, ["a"], []⟩, none, none⟩,
   ⟨"a", ⟨2, ["d", "b"], [⟨1, ["a"], []⟩, ⟨1, ["d", "b"], []⟩]⟩, none, none⟩]

/-- As `rawStd`, in another order. -/
def rawStd' : RawFbas :=
  [⟨"a", ⟨2, ["b", "d"], [⟨1, ["d", "b"], []⟩, ⟨1, ["a"], []⟩]⟩, none, none⟩,
   ⟨"d", ⟨2, ["a", "b", "d"], []⟩, none, none⟩, ⟨"b", ⟨2, ["a", "d", "b"], []⟩, none, none⟩,
   ⟨"c", ⟨1, ["a"], []⟩, none, none⟩]

/-- Concrete case for `C38_content` and `C38_idempotent_partial`. -/
example : ((Fbas.fromRaw rawStd).toStandardForm (Ref.refEnv 4)).map Fbas.nodes =
    .ok [⟨"a", ⟨2, [1, 2], [⟨1, [0], []⟩, ⟨1, [1, 2], []⟩]⟩⟩, ⟨"b", ⟨2, [0, 1, 2], []⟩⟩,
      ⟨"d", ⟨2, [0, 1, 2], []⟩⟩] := Ref.ok_of (by decide +kernel)

/-- Concrete case: the hypotheses of `C38_idempotent_partial` hold. -/
example : DistinctNames (Fbas.fromRaw rawStd) ∧ WF (Fbas.fromRaw rawStd) ∧
    (Fbas.fromRaw rawStd).relevantNodes (Ref.refEnv 4) = {0, 1, 3} ∧
    ∀ x y, x ∈ (Fbas.fromRaw rawStd).relevantNodes (Ref.refEnv 4) →
      Trusts (Fbas.fromRaw rawStd) x y → y ∈ (Fbas.fromRaw rawStd).relevantNodes (Ref.refEnv 4) := by
  have h : (Fbas.fromRaw rawStd).relevantNodes (Ref.refEnv 4) = {0, 1, 3} := by decide +kernel
  refine ⟨distinct_fromRaw (by unfold DistinctKeys; decide +kernel), wf_fromRaw _, h, ?_⟩
  rw [h]
  intro x y hx hxy
  have hm := (trusts_iff).1 hxy
  have : ∀ x ∈ ({0, 1, 3} : NodeSet), ∀ y < 4, y ∈ ((Fbas.fromRaw rawStd).qset x).containedNodes →
    y ∈ ({0, 1, 3} : NodeSet) := by decide +kernel
  exact this x hx y (wf_fromRaw rawStd x y hxy) (mem_containedNodes.2 hm)

/-- Concrete case: the hypotheses of `C38_order_json` hold. -/
example : DistinctKeys rawStd ∧ Reordered rawStd rawStd' := by
  refine ⟨by unfold DistinctKeys; decide +kernel, ?_⟩
  refine ⟨_, List.perm_append_comm (l₁ := rawStd.take 3) (l₂ := rawStd.drop 3), ?_⟩
  refine .cons ⟨rfl, .trans (.validators 2 _ ?_) (.inner 2 _ ?_)⟩ (.cons ⟨rfl, .validators 2 _ ?_⟩
    (.cons ⟨rfl, SameQSet.refl _⟩ (.cons ⟨rfl, SameQSet.refl _⟩ .nil)))
  · exact List.Perm.swap _ _ _
  · exact List.Perm.swap _ _ _
  · exact List.isPerm_iff.1 (by decide +kernel)

#print axioms C38_content
#print axioms C38_order
#print axioms C38_order_json
#print axioms C38_idempotent_iff
#print axioms C38_idempotent_partial
#print axioms C38_idempotent_counterexample

/-! ## C39 -/

/-- C39: the sets of public keys of quorums of the standard form are the ones of the quorums that
consist of relevant nodes. -/
theorem C39_quorums (env : Env) (f g : Fbas) (hd : DistinctNames f) (hwf : WF f)
    (h : f.toStandardForm env = .ok g) (P : Finset PublicKey) :
    Named g (IsQuorum g) P ↔ Named f (fun Q => IsQuorum f Q ∧ ∀ x ∈ Q, (∃ Q, IsQuorum f Q ∧ x ∈ Q) ∧
      ∃ Q, IsQuorum f Q ∧ ∀ y ∈ Q, Reaches f x y ∧ Reaches f y x) P := by
  rw [toStandardForm_eq env hd hwf] at h
  obtain rfl := Except.ok.inj h
  change Named (standardForm f) (IsQuorum (standardForm f)) P ↔ _
  unfold Named
  rw [← rawQuorum_toRaw_iff (standardForm_distinct hd) (standardForm_wf f),
    (standardForm_raw hd).rawQuorum, rawQuorum_restrict, rawQuorum_toRaw_iff hd hwf]
  constructor
  · rintro ⟨⟨Q, hQ, rfl⟩, hk⟩
    refine ⟨Q, ⟨hQ, fun x hx => ?_⟩, rfl⟩
    have := hk _ (Finset.mem_image_of_mem _ hx)
    rwa [relevant_toRaw env hd hwf (Finset.mem_range.1 (hQ.subset_all hx)),
      C08_relevant_iff env f hwf] at this
  · rintro ⟨Q, ⟨hQ, hk⟩, rfl⟩
    refine ⟨⟨Q, hQ, rfl⟩, fun p hp => ?_⟩
    obtain ⟨x, hx, rfl⟩ := Finset.mem_image.1 hp
    rw [relevant_toRaw env hd hwf (Finset.mem_range.1 (hQ.subset_all hx)),
      C08_relevant_iff env f hwf]
    exact hk x hx

/-- C39: the minimal quorums of the standard form are, as sets of public keys, the minimal quorums. -/
theorem C39_min_quorums (env : Env) (f g : Fbas) (hd : DistinctNames f) (hwf : WF f)
    (h : f.toStandardForm env = .ok g) (P : Finset PublicKey) :
    Named g (IsMinQuorum g) P ↔ Named f (IsMinQuorum f) P := by
  have hq := C39_quorums env f g hd hwf h
  obtain ⟨hgd, hgw⟩ : DistinctNames g ∧ WF g := by
    rw [toStandardForm_eq env hd hwf] at h
    obtain rfl := Except.ok.inj h
    exact ⟨standardForm_distinct hd, standardForm_wf f⟩
  rw [named_minQuorum hgd, named_minQuorum hd]
  have hcov : ∀ Q, IsMinQuorum f Q → Named g (IsQuorum g) (names f Q) := by
    intro Q hQ
    refine (hq _).2 ⟨Q, ⟨hQ.prop, fun x hx => ?_⟩, rfl⟩
    exact (C08_relevant_iff env f hwf x).1 (C08_contains_minQuorums env f hwf Q hQ hx)
  constructor
  · intro hP
    refine ⟨?_, fun P' hP' hsub => ?_⟩
    · obtain ⟨Q, hQ, rfl⟩ := (hq P).1 hP.prop
      exact ⟨Q, hQ.1, rfl⟩
    · obtain ⟨Q, hQ, rfl⟩ := hP'
      obtain ⟨Q', hQ', hs⟩ := hQ.exists_min
      have hn : names f Q' ⊆ names f Q := Finset.image_subset_image hs
      exact (hP.le_of_le (hcov Q' hQ') (hn.trans hsub)).trans hn
  · intro hP
    obtain ⟨Q, hQ, rfl⟩ := (named_minQuorum hd P).2 hP
    refine ⟨hcov Q hQ, fun P' hP' hsub => ?_⟩
    obtain ⟨Q', hQ', rfl⟩ := (hq P').1 hP'
    exact hP.le_of_le ⟨Q', hQ'.1, rfl⟩ hsub

/-- C39: everything else that is determined by the minimal quorums is also the same: quorum
intersection, minimal blocking sets, minimal splitting sets, top tier. -/
theorem C39_analysis (env : Env) (f g : Fbas) (hd : DistinctNames f) (hwf : WF f)
    (h : f.toStandardForm env = .ok g) :
    (QuorumIntersection g ↔ QuorumIntersection f) ∧
      (∀ P, Named g (IsMinBlocking g) P ↔ Named f (IsMinBlocking f) P) ∧
      (∀ P, Named g (IsMinSplitting g) P ↔ Named f (IsMinSplitting f) P) ∧
      ∀ p, (∃ x, InTopTier g x ∧ nameOf g x = p) ↔ ∃ x, InTopTier f x ∧ nameOf f x = p := by
  have hm := C39_min_quorums env f g hd hwf h
  have hgd : DistinctNames g := by
    rw [toStandardForm_eq env hd hwf] at h
    obtain rfl := Except.ok.inj h
    exact standardForm_distinct hd
  have hm' : Named g (IsMinQuorum g) = Named f (IsMinQuorum f) := funext (fun P => propext (hm P))
  refine ⟨?_, fun P => ?_, fun P => ?_, fun p => ?_⟩
  · rw [named_quorumIntersection hgd, named_quorumIntersection hd, hm']
  · rw [named_minBlocking hgd, named_minBlocking hd, hm']
  · rw [named_minSplitting hgd, named_minSplitting hd, hm']
  · rw [named_topTier, named_topTier, hm']

/-- Concrete case: the standard form of `rawStd` has the minimal quorums `{a,b}`, `{a,d}`, `{b,d}`,
here as IDs. -/
example : ∃ g, (Fbas.fromRaw rawStd).toStandardForm (Ref.refEnv 4) = .ok g ∧
    Named g (IsMinQuorum g) {"a", "b"} := by
  have hd : DistinctNames (Fbas.fromRaw rawStd) :=
    distinct_fromRaw (by unfold DistinctKeys; decide +kernel)
  have h := C38_content (Ref.refEnv 4) _ hd (wf_fromRaw _)
  refine ⟨_, h, (C39_min_quorums _ _ _ hd (wf_fromRaw _) h _).2 ⟨{1, 3}, ?_, ?_⟩⟩
  · decide +kernel
  · decide +kernel

#print axioms C39_quorums
#print axioms C39_min_quorums
#print axioms C39_analysis

end FA.Props
