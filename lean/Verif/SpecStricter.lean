import Verif.Spec

/-!
# Specification of stricter quorum sets
-/

namespace FA.Spec
open FA

/-- `Stricter q q'`: the quorum set `q'` results from `q` by raising thresholds, setting them to zero
(so that nothing satisfies them), and removing entries, at any depth. -/
inductive Stricter : QuorumSet → QuorumSet → Prop
  | refl (q : QuorumSet) : Stricter q q
  | raise {t t' : ℕ} (vs : List NodeId) (qs : List QuorumSet) (hpos : 1 ≤ t) (h : t ≤ t') :
      Stricter ⟨t, vs, qs⟩ ⟨t', vs, qs⟩
  | never (t : ℕ) (vs : List NodeId) (qs : List QuorumSet) : Stricter ⟨t, vs, qs⟩ ⟨0, vs, qs⟩
  | remove (t : ℕ) {vs vs' : List NodeId} {qs qs' : List QuorumSet} (hv : vs'.Sublist vs)
      (hq : qs'.Sublist qs) : Stricter ⟨t, vs, qs⟩ ⟨t, vs', qs'⟩
  | nested (t : ℕ) (vs : List NodeId) (l₁ : List QuorumSet) {q q' : QuorumSet}
      (l₂ : List QuorumSet) (h : Stricter q q') :
      Stricter ⟨t, vs, l₁ ++ q :: l₂⟩ ⟨t, vs, l₁ ++ q' :: l₂⟩
  | trans {a b c : QuorumSet} (h₁ : Stricter a b) (h₂ : Stricter b c) : Stricter a c

/-- `g` has the same number of nodes as `f`, with stricter quorum sets. -/
def StricterFbas (f g : Fbas) : Prop :=
  List.Forall₂ (fun a b : Node => Stricter a.quorumSet b.quorumSet) f.nodes g.nodes

end FA.Spec
