import Verif.Model.IoGroupings
import Verif.SpecRaw
import Verif.SpecGroups

/-!
# Specification of the names of ISP and country groups
-/

namespace FA.Spec
open FA

/-- A name without commas, and then without a full stop at its end. -/
def plainName (name : String) : List Char :=
  let l := name.toList.filter (fun c => c != ',')
  if l.getLast? = some '.' then l.dropLast else l

/-- Apart from commas the name is not empty and ends with an ASCII character. -/
def AsciiEnd (name : String) : Prop :=
  ∃ c, (name.toList.filter (fun c => c != ',')).getLast? = some c ∧ c.toNat < 128

/-- The public keys of the nodes whose ISP or country (selected by `key`) has the plain name `nm`, in
the order of the nodes. -/
def membersOf (key : RawNode → Option String) (r : RawFbas) (nm : String) : List PublicKey :=
  (r.filter (fun n => match key n with
    | some s => plainName s == nm.toList
    | none => false)).map RawNode.publicKey

end FA.Spec
