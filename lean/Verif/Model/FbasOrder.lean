import Verif.Model.Fbas

/-!
# Comparing FBASs: src/core_types/fbas.rs:113-135
-/

namespace FA

/-- Comparing public keys. Rust compares strings bytewise, Lean by code points; for UTF-8 this is the same
order. -/
def cmpKeys (a b : PublicKey) : Ordering := if a < b then .lt else if a = b then .eq else .gt

/-- `derive(Ord)` on `Node` (src/core_types/fbas.rs:135): first public keys, then quorum sets. -/
def Node.cmp (a b : Node) : Ordering :=
  (cmpKeys a.publicKey b.publicKey).then (a.quorumSet.cmp b.quorumSet)

/-- Lexicographic comparison of `Vec<Node>`. -/
def cmpNodes : List Node → List Node → Ordering
  | [], [] => .eq
  | [], _ :: _ => .lt
  | _ :: _, [] => .gt
  | a :: l, b :: m => (a.cmp b).then (cmpNodes l m)

/-- `Ord for Fbas` (src/core_types/fbas.rs:118-122) and `PartialOrd for Fbas` (lines 123-127). -/
def Fbas.cmp (f g : Fbas) : Ordering := cmpNodes f.nodes g.nodes

/-- `PartialEq for Fbas` (src/core_types/fbas.rs:129-133). -/
def Fbas.eq (f g : Fbas) : Bool := decide (f.nodes = g.nodes)

/-- `Hash for Fbas` (src/core_types/fbas.rs:113-117); `hashNodes` hashes a `Vec<Node>`. -/
def Fbas.hash {H : Type} (hashNodes : List Node → H) (f : Fbas) : H := hashNodes f.nodes

end FA
