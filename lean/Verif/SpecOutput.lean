import Verif.SpecGroups
import Verif.Model.Io
import Verif.Model.Json

/-!
# What a printed result says

Specification of the printed results, independent of the functions in `Verif/Model/Output.lean`.
-/

namespace FA.Spec
open FA

/-- Node `x` is shown as `name`: the name of the last group that lists it; its public key, if it is in
no group. -/
def ShownAs (gs : List Grouping) (f : Fbas) (x : NodeId) (name : String) : Prop :=
  (∃ (i : ℕ) (org : Grouping), gs[i]? = some org ∧ x ∈ org.validators ∧ name = org.name ∧
    ∀ (j : ℕ) (org' : Grouping), i < j → gs[j]? = some org' → x ∉ org'.validators) ∨
  ((∀ org ∈ gs, x ∉ org.validators) ∧ (f.nodes[x]?).map Node.publicKey = some name)

/-- The quorum set `p` has the shape and the thresholds of `q`, with names instead of IDs. -/
inductive ShowsQSet (shown : NodeId → String → Prop) : QuorumSet → RawQuorumSet → Prop
  | intro {t : ℕ} {vs : List NodeId} {names : List String} {qs : List QuorumSet}
      {ps : List RawQuorumSet} (hvs : List.Forall₂ shown vs names) (hlen : qs.length = ps.length)
      (hin : ∀ (i : ℕ) q p, qs[i]? = some q → ps[i]? = some p → ShowsQSet shown q p) :
      ShowsQSet shown ⟨t, vs, qs⟩ ⟨t, names, ps⟩

/-- How a quorum set is shown with node IDs: an object with the threshold, the validators and the inner quorum sets,
in this order; empty lists are left out. -/
inductive ListsQSet : QuorumSet → Json → Prop
  | intro {t : ℕ} {vs : List NodeId} {qs : List QuorumSet} {js : List Json} (hlen : qs.length = js.length)
      (hin : ∀ (i : ℕ) q j, qs[i]? = some q → js[i]? = some j → ListsQSet q j) :
      ListsQSet ⟨t, vs, qs⟩ (.obj (("threshold", .nat t) ::
        ((if vs = [] then [] else [("validators", .arr (vs.map .nat))]) ++
          (if js = [] then [] else [("innerQuorumSets", .arr js)]))))

/-- The ascending list of the IDs in `S`. -/
def ListsIds (S : NodeSet) (j : Json) : Prop :=
  ∃ v : List NodeId, v.Pairwise (· < ·) ∧ v.toFinset = S ∧ j = .arr (v.map .nat)

/-- The names of the nodes in `S`, in the order of their IDs. -/
def ListsNames (shown : NodeId → String → Prop) (S : NodeSet) (j : Json) : Prop :=
  ∃ (v : List NodeId) (names : List String), v.Pairwise (· < ·) ∧ v.toFinset = S ∧
    List.Forall₂ shown v names ∧ j = .arr (names.map .str)

/-- The summary of a list of sets: their number, the number of distinct nodes, the smallest, the largest
and the average size (all 0 if there is no set), and the number of sets of every size from 0 up to the
largest. -/
def Summary (l : List NodeSet) (j : Json) : Prop :=
  ∃ (lo hi : ℕ) (mean : ℚ) (h : List ℕ),
    j = .arr [.nat l.length, .nat (l.foldr (· ∪ ·) ∅).card, .arr [.nat lo, .nat hi, .rat mean],
      .arr (h.map .nat)] ∧
    (∀ S ∈ l, lo ≤ S.card ∧ S.card ≤ hi) ∧
    (l ≠ [] → (∃ S ∈ l, S.card = lo) ∧ ∃ S ∈ l, S.card = hi) ∧
    (l = [] → lo = 0 ∧ hi = 0 ∧ mean = 0) ∧
    mean * l.length = (l.map Finset.card).sum ∧
    h.length = hi + 1 ∧ ∀ k < hi + 1, h[k]? = some ((l.filter (fun S => S.card = k)).length)

/-- The groupings `g` were made from `gs`; no groupings means no groups. -/
def MadeFrom (g : Option Groupings) (gs : List Grouping) (f : Fbas) : Prop :=
  (g = none ∧ gs = []) ∨ ∃ g', g = some g' ∧ Groupings.new gs f = .ok g'

end FA.Spec
