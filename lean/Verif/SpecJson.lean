import Verif.Model.Json

/-!
# What a JSON document says

Specification of the accepted JSON documents ("nodes" and "organizations" files), independent of the
deserialization functions.
-/

namespace FA.Spec
open FA

/-- `l` has exactly one entry with this name. -/
def OneEntry (l : List (String × Json)) (name : String) (j : Json) : Prop :=
  ∃ pre post, l = pre ++ (name, j) :: post ∧ ∀ e ∈ pre ++ post, e.1 ≠ name

/-- `l` has no entry with this name. -/
def NoEntry (l : List (String × Json)) (name : String) : Prop := ∀ e ∈ l, e.1 ≠ name

/-- A list of strings. -/
def strings (l : List String) : Json := .arr (l.map .str)

/-- `j` describes the quorum set `q`. -/
inductive DescribesQSet : Json → RawQuorumSet → Prop
  /-- an object with inner quorum sets -/
  | obj {l : List (String × Json)} {t : ℕ} {vs : List PublicKey} {js : List Json}
      {qs : List RawQuorumSet} (ht : OneEntry l "threshold" (.nat t)) (h64 : t < 2 ^ 64)
      (hvs : OneEntry l "validators" (strings vs)) (hqs : OneEntry l "innerQuorumSets" (.arr js))
      (hlen : js.length = qs.length)
      (hin : ∀ (i : ℕ) j q, js[i]? = some j → qs[i]? = some q → DescribesQSet j q) :
      DescribesQSet (.obj l) ⟨t, vs, qs⟩
  /-- an object without inner quorum sets -/
  | flatObj {l : List (String × Json)} {t : ℕ} {vs : List PublicKey}
      (ht : OneEntry l "threshold" (.nat t)) (h64 : t < 2 ^ 64)
      (hvs : OneEntry l "validators" (strings vs)) (hqs : NoEntry l "innerQuorumSets") :
      DescribesQSet (.obj l) ⟨t, vs, []⟩
  /-- an array with inner quorum sets -/
  | arr {t : ℕ} {vs : List PublicKey} {js : List Json} {qs : List RawQuorumSet} (h64 : t < 2 ^ 64)
      (hlen : js.length = qs.length)
      (hin : ∀ (i : ℕ) j q, js[i]? = some j → qs[i]? = some q → DescribesQSet j q) :
      DescribesQSet (.arr [.nat t, strings vs, .arr js]) ⟨t, vs, qs⟩
  /-- an array without inner quorum sets -/
  | flatArr {t : ℕ} {vs : List PublicKey} (h64 : t < 2 ^ 64) :
      DescribesQSet (.arr [.nat t, strings vs]) ⟨t, vs, []⟩

/-- `null` or a string. -/
def DescribesOptStr (j : Json) (o : Option String) : Prop :=
  (j = .null ∧ o = none) ∨ ∃ s, j = .str s ∧ o = some s

/-- `j` describes geographical data with the country name `c`. -/
def DescribesGeo (j : Json) (c : Option String) : Prop :=
  (∃ l, j = .obj l ∧ ((NoEntry l "countryName" ∧ c = none) ∨
    ∃ j', OneEntry l "countryName" j' ∧ DescribesOptStr j' c)) ∨
  ∃ j', j = .arr [j'] ∧ DescribesOptStr j' c

/-- `j` is `null` or describes geographical data. -/
def DescribesOptGeo (j : Json) (o : Option (Option String)) : Prop :=
  (j = .null ∧ o = none) ∨ ∃ c, DescribesGeo j c ∧ o = some c

/-- `j` describes the node `n`. The quorum set may be missing, which means that the node has no quorum
slice. -/
def DescribesNode (j : Json) (n : RawNode) : Prop :=
  (∃ l, j = .obj l ∧ OneEntry l "publicKey" (.str n.publicKey) ∧
    ((NoEntry l "quorumSet" ∧ n.quorumSet = ⟨0, [], []⟩) ∨
      ∃ j', OneEntry l "quorumSet" j' ∧ DescribesQSet j' n.quorumSet) ∧
    ((NoEntry l "isp" ∧ n.isp = none) ∨ ∃ j', OneEntry l "isp" j' ∧ DescribesOptStr j' n.isp) ∧
    ((NoEntry l "geoData" ∧ n.geoData = none) ∨
      ∃ j', OneEntry l "geoData" j' ∧ DescribesOptGeo j' n.geoData)) ∨
  ∃ j₁ j₂ j₃, j = .arr [.str n.publicKey, j₁, j₂, j₃] ∧ DescribesQSet j₁ n.quorumSet ∧
    DescribesOptStr j₂ n.isp ∧ DescribesOptGeo j₃ n.geoData

/-- `j` describes the list of nodes `r`. -/
def DescribesFbas (j : Json) (r : RawFbas) : Prop :=
  ∃ js, j = .arr js ∧ List.Forall₂ DescribesNode js r

/-- `j` describes the group `g`. -/
def DescribesGrouping (j : Json) (g : RawGrouping) : Prop :=
  (∃ l, j = .obj l ∧ OneEntry l "name" (.str g.name) ∧
    OneEntry l "validators" (strings g.validators)) ∨
  j = .arr [.str g.name, strings g.validators]

/-- `j` describes the groups `gs`. -/
def DescribesGroupings (j : Json) (gs : List RawGrouping) : Prop :=
  ∃ js, j = .arr js ∧ List.Forall₂ DescribesGrouping js gs

/-- All thresholds fit into 64 bits. -/
inductive Fits : RawQuorumSet → Prop
  | intro {t : ℕ} {vs : List PublicKey} {qs : List RawQuorumSet} (ht : t < 2 ^ 64)
      (hin : ∀ q ∈ qs, Fits q) : Fits ⟨t, vs, qs⟩

end FA.Spec
