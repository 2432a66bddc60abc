import Verif.Model.Graph

/-!
# AS relationship files: src/io/graph.rs

Texts are lists of characters. Not modelled: reading, writing and compressing the files, and numbers
that do not fit into `usize` or `i32`.
-/

namespace FA

/-- A text. -/
abbrev Text := List Char

namespace Text

/-- `str::split` with a character. -/
def split (sep : Char) : Text → List Text
  | [] => [[]]
  | c :: s =>
    if c = sep then [] :: split sep s
    else
      match split sep s with
      | [] => [[c]]
      | p :: ps => (c :: p) :: ps

/-- Removes an optional `'\r'` from the end of a line (since Rust 1.71, not from the end of a last line
without a line feed; this difference is left out). -/
def stripCr (s : Text) : Text := if s.getLast? = some '\r' then s.dropLast else s

/-- `str::lines` -/
def lines (s : Text) : List Text :=
  let ps := split '\n' s
  (if ps.getLast? = some [] then ps.dropLast else ps).map stripCr

/-- Formatting a number with `{}`. -/
def ofNat (n : ℕ) : Text := Nat.toDigits 10 n

/-- The digits of a number; `none` if there are none or other characters. -/
def digits? (s : Text) : Option ℕ :=
  if s ≠ [] ∧ s.all Char.isDigit then some (Nat.ofDigitChars 10 s 0) else none

/-- `parse::<usize>()` (a leading `+` is allowed) -/
def parseUsize : Text → Option ℕ
  | '+' :: s => digits? s
  | s => digits? s

/-- `parse::<i32>()` (a leading `+` or `-` is allowed) -/
def parseI32 : Text → Option ℤ
  | '+' :: s => (digits? s).map (fun n => (n : ℤ))
  | '-' :: s => (digits? s).map (fun n => -(n : ℤ))
  | s => (digits? s).map (fun n => (n : ℤ))

end Text

namespace Graph

/-- `match parts.next()...parse::<i32>()` (src/io/graph.rs:84-95): whether the line describes a
peering. -/
def parsePeering : List Text → Except Panic Bool
  | [] => .error .unwrapNone
  | s :: _ =>
    match Text.parseI32 s with
    | none => .error .unwrapNone
    | some v => if v = -1 then .ok false else if v = 0 then .ok true else .error .explicit

/-- `get_edge_from_as_rel_line` (src/io/graph.rs:76-97). -/
def getEdgeFromAsRelLine (line : Text) : Except Panic (Option (NodeId × NodeId × Bool)) :=
  if line = [] ∨ line.head? = some '#' then .ok none
  else
    match Text.split '|' line with
    | sink :: source :: rest =>
      match Text.parseUsize sink, Text.parseUsize source with
      | some sink, some source =>
        match parsePeering rest with
        | .error e => .error e
        | .ok peering => .ok (some (sink, source, peering))
      | _, _ => .error .unwrapNone
    | _ => .error .unwrapNone

/-- `resize_with(.., BTreeSet::new)` to a size that is not smaller (src/io/graph.rs:33). -/
def resize (o : List NodeSet) (n : ℕ) : List NodeSet := o ++ List.replicate (n - o.length) ∅

/-- The body of the loop of `from_as_rel_string` (src/io/graph.rs:33-37). -/
def insertEdge (o : List NodeSet) (e : NodeId × NodeId × Bool) : Except Panic (List NodeSet) :=
  let o' := resize o (max o.length (max e.1 e.2.1 + 1))
  match modifyE o' e.2.1 (fun r => insert e.1 r) with
  | .error e => .error e
  | .ok o'' => if e.2.2 then modifyE o'' e.1 (fun r => insert e.2.1 r) else .ok o''

/-- One line of the input of `from_as_rel_string` (src/io/graph.rs:28-38). -/
def readLine (o : List NodeSet) (line : Text) : Except Panic (List NodeSet) :=
  match getEdgeFromAsRelLine line with
  | .error e => .error e
  | .ok none => .ok o
  | .ok (some e) => insertEdge o e

/-- `from_as_rel_string` (src/io/graph.rs:25-44). -/
def fromAsRelString (contents : Text) : Except Panic Graph :=
  match foldE readLine [] (Text.lines contents) with
  | .error e => .error e
  | .ok o => .ok ⟨o.map elems⟩

/-- The line for the edge between `i` and `j`; `kind` is the text after the second separator
(src/io/graph.rs:66, 68). -/
def edgeLine (i j : NodeId) (kind : Text) : Text :=
  Text.ofNat i ++ '|' :: (Text.ofNat j ++ '|' :: (kind ++ ['\n']))

/-- The body of the inner loop of `to_as_rel_string` (src/io/graph.rs:64-69). -/
def writeLink (g : Graph) (i : NodeId) (s : Text) (j : NodeId) : Except Panic Text :=
  match getE g.outlinks j with
  | .error e => .error e
  | .ok l =>
    if i ∈ l ∧ i < j then .ok (s ++ edgeLine i j ['0'])
    else if i ∉ l then .ok (s ++ edgeLine i j ['-', '1'])
    else .ok s

/-- `to_as_rel_string` (src/io/graph.rs:57-73). -/
def toAsRelString (g : Graph) (headComment : Option Text) : Except Panic Text :=
  let s := match headComment with
    | some c => '#' :: ' ' :: (c ++ ['\n'])
    | none => []
  foldE (fun s i =>
    match getE g.outlinks i with
    | .error e => .error e
    | .ok l => foldE (writeLink g i) s l) s (rangeFT 0 g.outlinks.length)

end Graph

end FA
