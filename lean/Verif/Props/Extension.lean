import Verif.Lemmas.Extension
import Verif.Props.FrontEnd
import Verif.Props.Io
import Verif.Ref.Json
import Verif.Ref.Decide

/-!
# C77: new nodes that no existing node lists
-/

namespace FA.Props
open FA Spec Analysis

/-- C77: `g` has all nodes of `f`, with the same IDs and quorum sets (which list only nodes of `f`), and
further nodes that may list any nodes. If the new nodes alone contain no quorum, then all methods of the
front end give the same answer (or panic) for both after the same calls, except the four that are about
all nodes (see `C77_all_nodes` for these). -/
theorem C77_unlisted_nodes (env : Env) (f g : Fbas) (hwf : WF f) (hwf' : WF g)
    (hpre : f.nodes <+: g.nodes) (hnew : ∀ Q, IsQuorum g Q → ∃ x ∈ Q, x < f.nodes.length)
    (history : List Call) (c : Call)
    (hc : c ∉ [Call.allNodes, .satisfiableNodes, .unsatisfiableNodes, .symmetricClusters]) :
    answerAfter env g history c = answerAfter env f history c := by
  refine answerAfter_extended ⟨hwf, hwf', hpre, hnew⟩ env history ?_
  simpa [Focused] using hc

/-- C77 for inputs: nodes with new public keys are appended, none of which is listed by a node that was
there before. -/
theorem C77_unlisted_nodes_input (env : Env) (r new : RawFbas) (hd : DistinctKeys (r ++ new))
    (hun : ∀ n ∈ r, ∀ m ∈ new, ¬ RawMentions n.quorumSet m.publicKey)
    (hnew : ∀ P, RawQuorum (r ++ new) P → ∃ n ∈ r, n.publicKey ∈ P)
    (history : List Call) (c : Call)
    (hc : c ∉ [Call.allNodes, .satisfiableNodes, .unsatisfiableNodes, .symmetricClusters]) :
    answerAfter env (Fbas.fromRaw (r ++ new)) history c =
      answerAfter env (Fbas.fromRaw r) history c := by
  refine C77_unlisted_nodes env _ _ (wf_fromRaw r) (wf_fromRaw _) (fromRaw_prefix hun) ?_ history c hc
  intro Q hQ
  obtain ⟨n, hn, hP⟩ := hnew _ ((rawQuorum_fromRaw hd hQ.subset_all).2 hQ)
  rw [names, Finset.mem_image] at hP
  obtain ⟨x, hx, hxn⟩ := hP
  refine ⟨x, hx, ?_⟩
  obtain ⟨i, hi, rfl⟩ := List.mem_iff_getElem.1 hn
  have hxl : x < (r ++ new).length := by
    rw [← fromRaw_length]; simpa [Fbas.allNodes] using hQ.subset_all hx
  have hil : i < (r ++ new).length := by rw [List.length_append]; omega
  have h1 : ((r ++ new).map RawNode.publicKey)[x]'(by simpa using hxl) =
      ((r ++ new).map RawNode.publicKey)[i]'(by simpa using hil) := by
    rw [List.getElem_map, List.getElem_map, List.getElem_append_left hi, ← hxn, nameOf]
    have : (Fbas.fromRaw (r ++ new)).nodes[x]? =
        some (Node.fromRaw (Fbas.rawIds (r ++ new)) ((r ++ new)[x])) := by
      unfold Fbas.fromRaw
      dsimp only
      rw [List.getElem?_map, List.getElem?_eq_getElem hxl]
      rfl
    rw [this]
    rfl
  have h2 := (List.Nodup.getElem_inj_iff hd).1 h1
  rw [fromRaw_length, h2]
  exact hi

/-- C77, for the functions behind the methods about all nodes: among the nodes of `f` the same ones are
satisfiable, and the symmetric clusters are the same, maybe in another order. -/
theorem C77_all_nodes (env env' : Env) (f g : Fbas) (hwf : WF f) (hwf' : WF g)
    (hpre : f.nodes <+: g.nodes) (hnew : ∀ Q, IsQuorum g Q → ∃ x ∈ Q, x < f.nodes.length) :
    (∀ x < f.nodes.length, (x ∈ g.satisfiableNodes ↔ x ∈ f.satisfiableNodes) ∧
      (x ∈ g.unsatisfiableNodes ↔ x ∈ f.unsatisfiableNodes)) ∧
    ∃ L L', findSymmetricClusters env f = .ok L ∧ findSymmetricClusters env' g = .ok L' ∧
      L'.Perm L := by
  have h : Extended f g := ⟨hwf, hwf', hpre, hnew⟩
  refine ⟨fun x hx => ⟨h.mem_sat hx, ?_⟩, h.symClusters env env'⟩
  have := h.mem_sat hx
  rw [Fbas.mem_satisfiableNodes, Fbas.mem_satisfiableNodes] at this
  rw [C05_unsatisfiable, C05_unsatisfiable, this]
  simp only [hx, hx.trans_le hpre.length_le, true_and]

/-- C77, the remaining case: new nodes that contain a quorum on their own end quorum intersection, which a
new analysis reports. The old minimal quorums are still minimal quorums. -/
theorem C77_own_quorum (env : Env) (f g : Fbas) (hwf' : WF g) (hpre : f.nodes <+: g.nodes)
    (hf : ∃ P, IsQuorum f P) (hg : ∃ Q, IsQuorum g Q ∧ ∀ x ∈ Q, f.nodes.length ≤ x) :
    answerAfter env g [] .hasQuorumIntersection = .ok (.bool false) ∧
      ∀ Q, IsMinQuorum f Q → IsMinQuorum g Q := by
  refine ⟨?_, fun Q hQ => Extended.minQuorum_of hpre hQ⟩
  obtain ⟨b, h1, h2⟩ := C12_fresh env g hwf'
  rw [h1]
  cases b with
  | false => rfl
  | true =>
    obtain ⟨-, h3⟩ := h2.1 rfl
    obtain ⟨P, hP⟩ := hf
    obtain ⟨Q, hQ, hlt⟩ := hg
    obtain ⟨x, hx, hx'⟩ := h3 P Q (Extended.lift_of hpre hP) hQ
    have : x < f.nodes.length := by simpa [Fbas.allNodes] using hP.subset_all hx
    exact absurd (hlt x hx') (Nat.not_le.2 this)

/-- Three nodes that need two of them. -/
def rawThree : RawFbas := ["a", "b", "c"].map (fun k => ⟨k, ⟨2, ["a", "b", "c"], []⟩, none, none⟩)

/-- A satisfiable node, two nodes that list each other and an old node, and an unsatisfiable node. -/
def rawCrowd : RawFbas :=
  [⟨"d", ⟨2, ["a", "b", "c"], []⟩, none, none⟩, ⟨"e", ⟨3, ["e", "f", "a"], []⟩, none, none⟩,
    ⟨"f", ⟨2, ["e"], [⟨2, ["a", "b", "d"], []⟩]⟩, none, none⟩, ⟨"g", ⟨2, ["g"], []⟩, none, none⟩]

/-- Concrete case: the hypotheses of `C77_unlisted_nodes` hold, and the answers contain only old
nodes although three of the new nodes are satisfiable. -/
example : (Fbas.fromRaw rawThree).nodes <+: (Fbas.fromRaw (rawThree ++ rawCrowd)).nodes ∧
    (∀ Q, IsQuorum (Fbas.fromRaw (rawThree ++ rawCrowd)) Q →
      ∃ x ∈ Q, x < (Fbas.fromRaw rawThree).nodes.length) ∧
    (Fbas.fromRaw (rawThree ++ rawCrowd)).satisfiableNodes = {0, 1, 2, 3, 4, 5} ∧
    answerAfter (Ref.refEnv 7) (Fbas.fromRaw (rawThree ++ rawCrowd)) [.minimalQuorums]
      .minimalBlockingSets = .ok (.sets [{0, 1}, {0, 2}, {1, 2}]) := by
  refine ⟨fromRaw_prefix ?_, ?_, by decide +kernel, Ref.ok_of (by decide +kernel)⟩
  · have : ∀ n ∈ rawThree, n.quorumSet = ⟨2, ["a", "b", "c"], []⟩ := by
      intro n hn
      obtain ⟨k, -, rfl⟩ := List.mem_map.1 hn
      rfl
    intro n hn m hm hc
    rw [this n hn] at hc
    have hk : ∀ m ∈ rawCrowd, m.publicKey ∉ ["a", "b", "c"] := by decide +kernel
    cases hc with
    | validator h => exact hk m hm h
    | inner h _ => exact absurd h (by simp)
  · have h : ∀ Q ∈ (Finset.range 7).powerset, (∀ x ∈ Q, ¬ x < 3) →
        (Fbas.fromRaw (rawThree ++ rawCrowd)).isQuorum Q = false := by decide +kernel
    intro Q hQ
    by_contra hc
    push Not at hc
    have hsub := hQ.subset_all
    rw [show (Fbas.fromRaw (rawThree ++ rawCrowd)).allNodes = Finset.range 7 from by
      decide +kernel] at hsub
    have := h Q (Finset.mem_powerset.2 hsub) (fun x hx hlt => by
      have := hc x hx
      rw [fromRaw_length] at this
      exact absurd hlt (Nat.not_lt.2 this))
    rw [(C03_isQuorum_iff _ Q).2 hQ] at this
    cases this

/-- Concrete case: a new node that is a quorum on its own. -/
example : IsQuorum (Fbas.fromRaw rawThree) {0, 1} ∧
    IsQuorum (Fbas.fromRaw (rawThree ++ [⟨"d", ⟨1, ["d"], []⟩, none, none⟩])) {3} ∧
    answerAfter (Ref.refEnv 4) (Fbas.fromRaw rawThree) [] .hasQuorumIntersection =
      .ok (.bool true) ∧
    answerAfter (Ref.refEnv 4) (Fbas.fromRaw (rawThree ++ [⟨"d", ⟨1, ["d"], []⟩, none, none⟩])) []
      .hasQuorumIntersection = .ok (.bool false) :=
  ⟨by decide +kernel, by decide +kernel, Ref.ok_of (by decide +kernel), Ref.ok_of (by decide +kernel)⟩

#print axioms C77_unlisted_nodes
#print axioms C77_unlisted_nodes_input
#print axioms C77_all_nodes
#print axioms C77_own_quorum

end FA.Props
