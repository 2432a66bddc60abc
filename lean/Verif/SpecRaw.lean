import Verif.Model.Io
import Verif.Spec

/-!
# Specification of FBASs given as JSON structures, and of names of nodes
-/

namespace FA.Spec
open FA

/-- A set of public keys is a quorum slice for a raw quorum set; as `Slice`. -/
inductive RawSlice (P : Finset PublicKey) : RawQuorumSet → Prop
  | intro (q : RawQuorumSet) (vs : List PublicKey) (qs : List RawQuorumSet)
      (hvs : vs.Sublist q.validators) (hqs : qs.Sublist q.inner)
      (hin : ∀ v ∈ vs, v ∈ P) (hsat : ∀ q' ∈ qs, RawSlice P q')
      (hpos : 1 ≤ q.threshold) (hlen : vs.length + qs.length = q.threshold) : RawSlice P q

/-- A raw quorum set lists a public key, at any nesting depth. -/
inductive RawMentions : RawQuorumSet → PublicKey → Prop
  | validator {q : RawQuorumSet} {x : PublicKey} : x ∈ q.validators → RawMentions q x
  | inner {q q' : RawQuorumSet} {x : PublicKey} : q' ∈ q.inner → RawMentions q' x → RawMentions q x

/-- A quorum in a raw FBAS: a non-empty set of public keys of nodes that contains a slice for each of
its members. -/
def RawQuorum (r : RawFbas) (P : Finset PublicKey) : Prop :=
  P.Nonempty ∧ ∀ p ∈ P, ∃ n ∈ r, n.publicKey = p ∧ RawSlice P n.quorumSet

/-- All public keys are different. -/
def DistinctKeys (r : RawFbas) : Prop := (r.map RawNode.publicKey).Nodup

/-- Raw quorum sets that differ only in the order of validators and of inner quorum sets, at any
depth. -/
inductive SameQSet : RawQuorumSet → RawQuorumSet → Prop
  | validators (t : ℕ) {vs vs' : List PublicKey} (qs : List RawQuorumSet) (h : vs.Perm vs') :
      SameQSet ⟨t, vs, qs⟩ ⟨t, vs', qs⟩
  | inner (t : ℕ) (vs : List PublicKey) {qs qs' : List RawQuorumSet} (h : qs.Perm qs') :
      SameQSet ⟨t, vs, qs⟩ ⟨t, vs, qs'⟩
  | nested (t : ℕ) (vs : List PublicKey) (l₁ : List RawQuorumSet) {q q' : RawQuorumSet}
      (l₂ : List RawQuorumSet) (h : SameQSet q q') :
      SameQSet ⟨t, vs, l₁ ++ q :: l₂⟩ ⟨t, vs, l₁ ++ q' :: l₂⟩
  | trans {a b c : RawQuorumSet} (h₁ : SameQSet a b) (h₂ : SameQSet b c) : SameQSet a c

/-- `r'` lists the nodes of `r` in another order, and quorum sets may also be reordered. -/
def Reordered (r r' : RawFbas) : Prop :=
  ∃ l : RawFbas, r.Perm l ∧
    List.Forall₂ (fun a b => a.publicKey = b.publicKey ∧ SameQSet a.quorumSet b.quorumSet) l r'

/-- The position of the last node with public key `p`. -/
def LastIndex (r : RawFbas) (p : PublicKey) (i : ℕ) : Prop :=
  (∃ n, r[i]? = some n ∧ n.publicKey = p) ∧ ∀ j n, i < j → r[j]? = some n → n.publicKey ≠ p

open Classical in
/-- `q` is the quorum set with the content of the raw quorum set `r`, where public keys are replaced
by IDs as given by `ids`: same threshold; each ID occurs as often as public keys for it do, in
ascending order; and the inner quorum sets are the ones of `r` in some order, sorted. -/
inductive Means (ids : PublicKey → ℕ → Prop) : RawQuorumSet → QuorumSet → Prop
  | intro (r : RawQuorumSet) (q : QuorumSet) (ht : q.threshold = r.threshold)
      (hv : ∀ i, q.validators.count i = r.validators.countP (fun p => decide (ids p i)))
      (hs : q.validators.Pairwise (· ≤ ·))
      (l : List QuorumSet) (hp : q.inner.Perm l) (hl : l.length = r.inner.length)
      (hi : ∀ (k : ℕ) r' q', r.inner[k]? = some r' → l[k]? = some q' → Means ids r' q')
      (hsi : q.inner.Pairwise QuorumSet.le) : Means ids r q

/-- The public key of node `x`. -/
def nameOf (f : Fbas) (x : NodeId) : PublicKey :=
  match f.nodes[x]? with
  | some n => n.publicKey
  | none => ""

/-- The public keys of a set of nodes. -/
def names (f : Fbas) (S : NodeSet) : Finset PublicKey := S.image (nameOf f)

/-- All nodes have different public keys. -/
def DistinctNames (f : Fbas) : Prop := (f.nodes.map Node.publicKey).Nodup

/-- Validator lists and lists of inner quorum sets are sorted, at any depth. -/
inductive SortedQSet : QuorumSet → Prop
  | intro (q : QuorumSet) (hv : q.validators.Pairwise (· ≤ ·)) (hs : q.inner.Pairwise QuorumSet.le)
      (hi : ∀ q' ∈ q.inner, SortedQSet q') : SortedQSet q

/-- The map from public keys to IDs is right: `pk` is mapped to `i` iff node `i` has public key
`pk`. -/
def RegistryOk (f : Fbas) : Prop :=
  ∀ pk i, f.getNodeId pk = some i ↔ ∃ n, f.nodes[i]? = some n ∧ n.publicKey = pk

end FA.Spec

namespace FA.Spec
open FA

open Classical in
mutual
/-- A raw quorum set without the validators that do not satisfy `keep`, and without inner quorum sets
that are then empty (no entries, threshold zero). -/
noncomputable def restrict (keep : PublicKey → Prop) : RawQuorumSet → RawQuorumSet
  | ⟨t, vs, qs⟩ => ⟨t, vs.filter (fun p => decide (keep p)), restrictList keep qs⟩
/-- As `restrict`, for lists. -/
noncomputable def restrictList (keep : PublicKey → Prop) : List RawQuorumSet → List RawQuorumSet
  | [] => []
  | q :: qs =>
    if restrict keep q = ⟨0, [], []⟩ then restrictList keep qs
    else restrict keep q :: restrictList keep qs
end

open Classical in
/-- The nodes of `r` that satisfy `keep`, with restricted quorum sets. -/
noncomputable def restrictFbas (keep : PublicKey → Prop) (r : RawFbas) : RawFbas :=
  (r.filter (fun n => decide (keep n.publicKey))).map
    (fun n => { n with quorumSet := restrict keep n.quorumSet })

/-- The node with public key `a` lists the public key `b`. -/
def RawTrusts (r : RawFbas) (a b : PublicKey) : Prop :=
  ∃ n ∈ r, n.publicKey = a ∧ RawMentions n.quorumSet b

/-- Reachability in the trust graph. -/
def RawReaches (r : RawFbas) : PublicKey → PublicKey → Prop := Relation.ReflTransGen (RawTrusts r)

/-- The node with public key `p` is in a quorum, and is mutually reachable with all nodes of some
quorum. -/
def RawRelevant (r : RawFbas) (p : PublicKey) : Prop :=
  (∃ P, RawQuorum r P ∧ p ∈ P) ∧
    ∃ P, RawQuorum r P ∧ ∀ p' ∈ P, RawReaches r p p' ∧ RawReaches r p' p

end FA.Spec

namespace FA.Spec
open FA

/-- `P` is the set of public keys of a set of nodes that satisfies `X`. -/
def Named (f : Fbas) (X : NodeSet → Prop) (P : Finset PublicKey) : Prop := ∃ S, X S ∧ names f S = P

end FA.Spec
