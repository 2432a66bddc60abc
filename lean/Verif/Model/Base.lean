import Mathlib.Data.Finset.Basic
import Mathlib.Data.Finset.Card
import Mathlib.Data.Finset.Lattice.Fold
import Mathlib.Data.List.Sort
import Mathlib.Data.List.Lex

/-!
# Basic data types of the model

External data structures and iterator adaptors used by the Rust code.
-/

namespace FA

/-- `NodeId` (src/core_types/mod.rs:12). `usize` is modelled as an unbounded natural number. -/
abbrev NodeId := ℕ

/-- `NodeIdSet = BitSet` (src/core_types/mod.rs:15): a finite set of node IDs. -/
abbrev NodeSet := Finset ℕ

/-- Iteration over a `BitSet`: members in ascending order (`bit_set` 0.5: bit positions are scanned
from 0 up to the highest one). -/
def elems (s : NodeSet) : List NodeId :=
  (List.range (s.sup id + 1)).filter (fun x => decide (x ∈ s))

/-- Collecting an iterator of node IDs into a `BitSet`. -/
abbrev ofList (l : List NodeId) : NodeSet := l.toFinset

/-- `Ord for BitSet` (`bit_set` 0.5): lexicographic comparison of the ascending members. -/
def lexLe (a b : NodeSet) : Prop := elems a ≤ elems b

instance : DecidableRel lexLe := fun a b => inferInstanceAs (Decidable (elems a ≤ elems b))

/-- `sort_unstable` on a `Vec<NodeIdSet>`. -/
def sortLex (l : List NodeSet) : List NodeSet := l.insertionSort lexLe

/-- `sort_by_key(|x| x.len())` on a `Vec<NodeIdSet>` (a stable sort). -/
def sortLen (l : List NodeSet) : List NodeSet :=
  l.insertionSort (fun a b => a.card ≤ b.card)

/-- `sort_unstable` on a `Vec<NodeId>`. -/
def sortIds (l : List NodeId) : List NodeId := l.insertionSort (· ≤ ·)

/-- `Itertools::combinations(k)` (itertools 0.9): all ways to choose `k` positions, in
lexicographic order of positions; one empty combination for `k = 0`. -/
def combinations {α : Type} : ℕ → List α → List (List α)
  | 0, _ => [[]]
  | _ + 1, [] => []
  | k + 1, x :: xs => (combinations k xs).map (x :: ·) ++ combinations (k + 1) xs

/-- Cartesian product of a list of lists, last factor varying fastest; the nullary product has one
element. -/
def product {α : Type} : List (List α) → List (List α)
  | [] => [[]]
  | g :: gs => g.flatMap (fun x => (product gs).map (x :: ·))

/-- `Itertools::multi_cartesian_product` (itertools 0.9): like `product`, except that the product
of zero iterators yields nothing at all. -/
def multiCartesianProduct {α : Type} : List (List α) → List (List α)
  | [] => []
  | g :: gs => product (g :: gs)

/-- The loop `for s in sets { acc.union_with(&s) }` starting from the empty set
(e.g. src/core_types/quorum_set.rs:73-77, src/analysis/sets.rs:17-23). -/
def unionAll (l : List NodeSet) : NodeSet := l.foldl (fun acc s => acc ∪ s) ∅

/-- Runtime failures of the Rust code that the model represents explicitly. -/
inductive Panic where
  /-- a failed `assert!` -/
  | assertion
  /-- `unwrap()` on `None` -/
  | unwrapNone
  /-- index out of bounds -/
  | outOfBounds
  /-- an explicit `panic!` -/
  | explicit
  /-- `RefCell`: mutation while borrowed -/
  | borrow
  /-- arithmetic overflow (only in Model/Machine.lean; elsewhere numbers are unbounded) -/
  | overflow
  /-- recursion depth exhausted (does not exist in Rust as such; proved unreachable) -/
  | fuel
deriving DecidableEq, Repr

/-- Mapping a function that may panic over a list. -/
def mapE {α β : Type} (g : α → Except Panic β) : List α → Except Panic (List β)
  | [] => .ok []
  | a :: l =>
    match g a with
    | .error e => .error e
    | .ok b =>
      match mapE g l with
      | .error e => .error e
      | .ok bs => .ok (b :: bs)

end FA
