import Verif.Model.Output

/-!
# The command line tool: src/bin/fbas_analyzer.rs

The output is a list of lines; durations are left out. The text of comments is represented by a tag and
the numbers in it. If the program panics, the model does not give the lines that were already printed.
Messages on STDERR and logging are not part of the model.
-/

namespace FA.Tool
open FA

/-- The commentary (src/bin/fbas_analyzer.rs:214, 227, 244-251, 270, 284-287, 299-304, 316-322, 335-340,
359-372). -/
inductive Comment where
  | newline
  | nodeIds
  | describeFormat
  | countedAsOne
  | alternativeCheck
  | allIntersect
  | notAllIntersect
  | foundQuorums (n : ℕ)
  | foundBlockingSets (n : ℕ)
  | foundSplittingSets (n : ℕ)
  | distinctNodes (n : ℕ)
deriving DecidableEq

/-- A line of the output; `duration` is the line with the duration of an analysis. -/
inductive Line where
  | result (name : String) (value : Json)
  | duration (name : String)
  | comment (c : Comment)

/-- `struct Cli` (src/bin/fbas_analyzer.rs:11-75): the given options, and the content of the given
files. -/
structure Options where
  /-- the content of the "nodes" file, or of STDIN -/
  nodes : Json
  /-- whether a path for the "nodes" file is given -/
  nodesPath : Bool
  minimalQuorums : Bool
  minimalBlockingSets : Bool
  minimalSplittingSets : Bool
  all : Bool
  alternativeCheck : Bool
  dontCheck : Bool
  describe : Bool
  pretty : Bool
  resultsOnly : Bool
  /-- the content of the "organizations" file, if a path for it is given -/
  organizations : Option Json
  ispMerge : Bool
  ctryMerge : Bool

/-- `struct Output` (src/bin/fbas_analyzer.rs:343-350). -/
structure Output where
  resultsOnly : Bool
  pretty : Bool
  describe : Bool
  fbas : Fbas
  groupings : Option Groupings

namespace Output

/-- `comment` and `comment_newline` (src/bin/fbas_analyzer.rs:382-391). -/
def comment (o : Output) (c : Comment) : List Line := if o.resultsOnly then [] else [.comment c]

/-- `result_uncondensed` (src/bin/fbas_analyzer.rs:412-419). -/
def resultUncondensed (o : Output) (name : String) (v : Value) : Except Panic (List Line) :=
  match (if o.pretty then v.prettyJson o.fbas o.groupings else v.idJson) with
  | .error e => .error e
  | .ok j => .ok [.result name j]

/-- `result` (src/bin/fbas_analyzer.rs:405-411). -/
def result (o : Output) (name : String) (v : Value) : Except Panic (List Line) :=
  if o.describe then
    match v.describeJson with
    | .error e => .error e
    | .ok j => .ok [.result name j]
  else o.resultUncondensed name v

/-- `timed_result` (src/bin/fbas_analyzer.rs:392-404). -/
def timedResult (o : Output) (name : String) (v : Value) : Except Panic (List Line) :=
  match o.result name v with
  | .error e => .error e
  | .ok l => .ok (l ++ [.duration name])

/-- The lines printed by `init` (src/bin/fbas_analyzer.rs:352-381). -/
def init (o : Output) : List Line :=
  if o.resultsOnly then []
  else (if o.pretty then [] else [.comment .nodeIds]) ++
    (if o.describe then [.comment .describeFormat] else [])

end Output

/-- `extract_main_todos` (src/bin/fbas_analyzer.rs:169-179). -/
def Options.todos (o : Options) : Bool × Bool × Bool :=
  if o.all then (true, true, true)
  else (o.minimalQuorums, o.minimalBlockingSets, o.minimalSplittingSets)

/-- `extract_groupings_todos` (src/bin/fbas_analyzer.rs:180-196). -/
def Options.groupingsTodos (o : Options) : Bool × Bool × Bool :=
  if o.ctryMerge then (true, false, false)
  else if o.ispMerge then (false, true, false)
  else if o.organizations.isSome then (false, false, true)
  else (false, false, false)

/-- `Except` to optional. -/
def someE (r : Except Panic Groupings) : Except Panic (Option Groupings) :=
  match r with
  | .error e => .error e
  | .ok g => .ok (some g)

/-- Loading the groupings (src/bin/fbas_analyzer.rs:82-90, 130-168). Without a path of a "nodes" file,
nodes are not merged by country or ISP. `order`: see `groupsFromRawNodes`. -/
def loadGroupings (order : List String → List String) (o : Options) (f : Fbas) :
    Except Panic (Option Groupings) :=
  match o.groupingsTodos with
  | (ctry, isp, org) =>
    if ctry then
      if o.nodesPath then someE (Groupings.countriesFromJson order o.nodes f) else .ok none
    else if isp then
      if o.nodesPath then someE (Groupings.ispsFromJson order o.nodes f) else .ok none
    else if org then
      match o.organizations with
      | some j => someE (Groupings.organizationsFromJson j f)
      | none => .ok none
    else .ok none

/-- `report_overview` (src/bin/fbas_analyzer.rs:219-229). -/
def reportOverview (o : Output) (a : Analysis) : Except Panic (List Line) := do
  let all ← a.allNodes
  let l₁ ← o.result "nodes_total" (.nat all.len)
  match o.groupings with
  | none => .ok l₁
  | some g =>
    let merged ← all.mergedByGroup g
    let l₂ ← o.result "nodes_total_merged" (.nat merged.len)
    .ok (l₁ ++ l₂ ++ o.comment .countedAsOne)

/-- The merging in `find_and_report_symmetric_clusters` (src/bin/fbas_analyzer.rs:262-266). -/
def mergeClusters (g : Option Groupings) (l : List QuorumSet) : Except Panic (List QuorumSet) :=
  match g with
  | some g => g.mergeQuorumSets l
  | none => .ok l

/-- `find_and_report_symmetric_clusters` (src/bin/fbas_analyzer.rs:253-271). -/
def reportSymmetricClusters (env : Env) (o : Output) (a : Analysis) : Except Panic (List Line) := do
  let l ← a.symmetricClusters env
  let l ← mergeClusters o.groupings l
  let lines ← { o with describe := false }.timedResult "symmetric_clusters" (.qsets l)
  .ok (lines ++ o.comment .newline)

/-- The merging in `do_time_maybe_merge_and_report!` (src/bin/fbas_analyzer.rs:204-212). -/
def mergeSets (g : Option Groupings) (r : SetVecResult) : Except Panic SetVecResult :=
  match g with
  | none => .ok r
  | some g =>
    match r.mergedByGroup g with
    | .error e => .error e
    | .ok r => .ok r.minimalSets

/-- `find_and_report_minimal_quorums`, `find_and_report_minimal_blocking_sets` and
`find_and_report_minimal_splitting_sets` (src/bin/fbas_analyzer.rs:272-323). The comment contains the
number of sets before merging (from cache). -/
def reportSets (name : String) (method : Analysis → Except Panic (SetVecResult × Analysis))
    (comment : ℕ → Comment) (o : Output) (a : Analysis) : Except Panic (List Line × Analysis) := do
  let (r, a) ← method a
  let r ← mergeSets o.groupings r
  let lines ← o.timedResult name (.sets r)
  let (r', a) ← method a
  .ok (lines ++ o.comment (comment r'.len), a)

/-- The first part of `check_and_report_if_has_quorum_intersection` with the alternative check
(src/bin/fbas_analyzer.rs:235-242). -/
def reportAlternative (env : Env) (o : Output) (a : Analysis) : Except Panic (List Line × Bool) := do
  let (verdict, quorums) ← a.alternativeCheck env
  let l₁ ← o.timedResult "has_quorum_intersection" (.bool verdict)
  let l₂ ←
    match quorums with
    | some r => o.result "nonintersecting_quorums" (.sets r)
    | none => .ok []
  .ok (o.comment .alternativeCheck ++ l₁ ++ l₂, verdict)

/-- `check_and_report_if_has_quorum_intersection` (src/bin/fbas_analyzer.rs:230-252). -/
def reportIntersection (env : Env) (alternative : Bool) (o : Output) (a : Analysis) :
    Except Panic (List Line × Analysis) := do
  let (lines, verdict, a) ←
    if alternative then do
      let (lines, verdict) ← reportAlternative env o a
      .ok (lines, verdict, a)
    else do
      let (verdict, a) ← a.hasQuorumIntersection env
      let lines ← o.timedResult "has_quorum_intersection" (.bool verdict)
      let (verdict, a) ← a.hasQuorumIntersection env
      .ok (lines, verdict, a)
  .ok (lines ++ o.comment (if verdict then .allIntersect else .notAllIntersect), a)

/-- The merging in `report_top_tier_uncondensed` (src/bin/fbas_analyzer.rs:330-332). -/
def mergeSet (g : Option Groupings) (r : SetResult) : Except Panic SetResult :=
  match g with
  | none => .ok r
  | some g => r.mergedByGroup g

/-- `report_top_tier_uncondensed` (src/bin/fbas_analyzer.rs:324-341). -/
def reportTopTier (env : Env) (o : Output) (a : Analysis) : Except Panic (List Line × Analysis) := do
  let (t, a) ← a.topTier env
  let t ← mergeSet o.groupings t
  let lines ← o.resultUncondensed "top_tier" (.set t)
  .ok (lines ++ o.comment (.distinctNodes t.len), a)

/-- An optional part of `main`. -/
def optional (b : Bool) (part : Analysis → Except Panic (List Line × Analysis)) (a : Analysis) :
    Except Panic (List Line × Analysis) := if b then part a else .ok ([], a)

/-- The part of `main` after loading (src/bin/fbas_analyzer.rs:91-125). -/
def analyze (env : Env) (opts : Options) (o : Output) : Except Panic (List Line) := do
  let a ← Analysis.new env o.fbas
  let l₁ ← reportOverview o a
  let l₂ ← reportSymmetricClusters env o a
  let (q, b, s) := opts.todos
  let (l₃, a) ← optional q
    (reportSets "minimal_quorums" (fun a => a.minimalQuorums env) .foundQuorums o) a
  let (l₄, a) ← optional (!opts.dontCheck) (reportIntersection env opts.alternativeCheck o) a
  let (l₅, a) ← optional b
    (reportSets "minimal_blocking_sets" (fun a => a.minimalBlockingSets env) .foundBlockingSets o) a
  let (l₆, a) ← optional s
    (reportSets "minimal_splitting_sets" (fun a => a.minimalSplittingSets env) .foundSplittingSets o) a
  let (l₇, _) ← optional (q || b || s) (reportTopTier env o) a
  .ok (o.init ++ l₁ ++ o.comment .newline ++ l₂ ++ l₃ ++ l₄ ++ l₅ ++ l₆ ++ l₇)

/-- `main` (src/bin/fbas_analyzer.rs:77-126). -/
def main (env : Env) (order : List String → List String) (opts : Options) :
    Except Panic (List Line) :=
  match Fbas.fromJson opts.nodes with
  | .error e => .error e
  | .ok f =>
    match loadGroupings order opts f with
    | .error e => .error e
    | .ok g => analyze env opts ⟨opts.resultsOnly, opts.pretty, opts.describe, f, g⟩

/-- The printed results, without comments and durations. -/
def results (lines : List Line) : List (String × Json) :=
  lines.filterMap (fun
    | .result name j => some (name, j)
    | _ => none)

end FA.Tool
