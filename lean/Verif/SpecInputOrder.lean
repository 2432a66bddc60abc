import Verif.Model.FrontEnd
import Verif.SpecRaw

/-!
# Specification of answers in terms of public keys

IDs are positions in the input, so answers for different inputs are compared by public keys.
-/

namespace FA.Spec
open FA Analysis

/-- `a`, given for `f`, says the same about nodes with given public keys as `b`, given for `g`. The
sets and quorum sets may be listed in another order, and the alternative check may show other
quorums. -/
inductive SameAnswer (f g : Fbas) : Answer → Answer → Prop
  | bool (b : Bool) : SameAnswer f g (.bool b) (.bool b)
  | set {s s' : NodeSet} (h : names f s = names g s') : SameAnswer f g (.set s) (.set s')
  | sets {l l' : List NodeSet} (h : (l.map (names f)).Perm (l'.map (names g))) :
      SameAnswer f g (.sets l) (.sets l')
  | intersecting : SameAnswer f g (.verdict true none) (.verdict true none)
  | disjoint (l l' : List NodeSet) :
      SameAnswer f g (.verdict false (some l)) (.verdict false (some l'))
  | noQset : SameAnswer f g (.qset none) (.qset none)
  | qset {q q' : QuorumSet} (h : SameQSet (q.toRaw f) (q'.toRaw g)) :
      SameAnswer f g (.qset (some q)) (.qset (some q'))
  | qsets {l l' l'' : List QuorumSet} (hp : l'.Perm l'')
      (h : List.Forall₂ (fun q q' => SameQSet (q.toRaw f) (q'.toRaw g)) l l'') :
      SameAnswer f g (.qsets l) (.qsets l')

/-- The same result of a call: the same panic, or answers that say the same. -/
inductive SameResult (f g : Fbas) : Except Panic Answer → Except Panic Answer → Prop
  | error (e : Panic) : SameResult f g (.error e) (.error e)
  | ok {a b : Answer} (h : SameAnswer f g a b) : SameResult f g (.ok a) (.ok b)

end FA.Spec
