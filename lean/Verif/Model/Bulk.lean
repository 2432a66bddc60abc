import Verif.Model.AsRel
import Verif.Model.Simulation
import Mathlib.Data.Prod.Lex
import Mathlib.Data.List.Sort
import Mathlib.Data.Char
import Mathlib.Data.List.Lex

/-!
# The bulk analysis programs: src/bin/bulk_fbas_analyzer.rs, src/bin/bulk_performance_experiment.rs

Not modelled: command line, CSV files, threads, time measurements. A path is a directory and a file
name; paths without a file name (for which `extract_file_name` panics) do not occur.
-/

namespace FA

namespace Text

/-- `ends_with` -/
def endsWith (s suffix : Text) : Bool := suffix.isSuffixOf s

/-- `contains` -/
def contains (s part : Text) : Bool := s.tails.any (fun t => part.isPrefixOf t)

/-- `replace(part, "")` for a non-empty `part`: removes the occurrences from left to right. The first
argument limits the number of steps. -/
def removeAux (part : Text) : ℕ → Text → Text
  | 0, s => s
  | _ + 1, [] => []
  | k + 1, c :: s =>
    if part.isPrefixOf (c :: s) then removeAux part k ((c :: s).drop part.length)
    else c :: removeAux part k s

/-- `replace(part, "")` for a non-empty `part`. -/
def remove (part s : Text) : Text := removeAux part (s.length + 1) s

/-- `split_terminator` with a character. -/
def splitTerminator (sep : Char) (s : Text) : List Text :=
  let ps := split sep s
  if ps.getLast? = some [] then ps.dropLast else ps

/-- `join` -/
def join (sep : Text) : List Text → Text
  | [] => []
  | [p] => p
  | p :: q :: ps => p ++ sep ++ join sep (q :: ps)

end Text

namespace Bulk

/-! ### Input files -/

/-- A path. -/
structure Path where
  dir : Text
  fileName : Text
deriving DecidableEq

/-- `struct InputDataPoint` (src/bin/bulk_fbas_analyzer.rs:64-69). -/
structure Input where
  label : Text
  nodesPath : Path
  organizationsPath : Option Path
deriving DecidableEq

/-- `extract_label` (src/bin/bulk_fbas_analyzer.rs:419-428). -/
def extractLabel (path : Path) (ignore : Text) : Text :=
  Text.join ['_'] ((Text.splitTerminator '_' (Text.remove ".json".toList path.fileName)).filter
    (fun s => !["nodes".toList, "organizations".toList, ignore].contains s))

/-- `extract_nodes_paths` (src/bin/bulk_fbas_analyzer.rs:374-381). -/
def extractNodesPaths (inputPaths : List Path) : List Path :=
  (inputPaths.filter (fun p => p.fileName.endsWith ".json".toList)).filter
    (fun p => !p.fileName.contains "organizations".toList)

/-- `extract_organizations_paths_by_label` (src/bin/bulk_fbas_analyzer.rs:382-392). -/
def extractOrganizationsPathsByLabel (inputPaths : List Path) (ignore : Text) : Map Text Path :=
  Map.collect (((inputPaths.filter (fun p => p.fileName.endsWith ".json".toList)).filter
    (fun p => p.fileName.contains "organizations".toList)).map
      (fun p => (extractLabel p ignore, p)))

/-- `build_inputs` (src/bin/bulk_fbas_analyzer.rs:393-411). -/
def buildInputs (nodesPaths : List Path) (organizationsPathsByLabel : Map Text Path)
    (ignore : Text) : List Input :=
  nodesPaths.map (fun p =>
    ⟨extractLabel p ignore, p, organizationsPathsByLabel.get? (extractLabel p ignore)⟩)

/-- `extract_inputs` (src/bin/bulk_fbas_analyzer.rs:159-180); `none` stands for an error. -/
def extractInputs (inputPaths : List Path) (ignore : Text) : Option (List Input) :=
  let nodesPaths := extractNodesPaths inputPaths
  let organizationsPathsByLabel := extractOrganizationsPathsByLabel inputPaths ignore
  if nodesPaths.length + organizationsPathsByLabel.length < inputPaths.length then none
  else some (buildInputs nodesPaths organizationsPathsByLabel ignore)

/-! ### Tasks -/

/-- `enum Task` (src/bin/bulk_fbas_analyzer.rs:144-148, src/bin/bulk_performance_experiment.rs:102-106)
for inputs of type `I` and outputs of type `O`. -/
inductive Task (I O : Type) where
  | reuse (output : O)
  | analyze (input : I)
deriving DecidableEq

/-- `Task::label` (src/bin/bulk_fbas_analyzer.rs:150-157,
src/bin/bulk_performance_experiment.rs:108-115) -/
def Task.label {I O L : Type} (labelI : I → L) (labelO : O → L) : Task I O → L
  | .reuse o => labelO o
  | .analyze i => labelI i

/-- `load_existing_outputs` (src/bin/bulk_fbas_analyzer.rs:182-195,
src/bin/bulk_performance_experiment.rs:132-146) for the lines of the file. -/
def loadExistingOutputs {O K : Type} [DecidableEq K] (keyO : O → K) (dataPoints : List O) : Map K O :=
  Map.collect (dataPoints.map (fun d => (keyO d, d)))

/-- `BTreeMap::values`: ordered by key. -/
def sortedValues {K V : Type} [LinearOrder K] (m : Map K V) : List V :=
  (m.insertionSort (fun a b => a.1 ≤ b.1)).map Prod.snd

/-- `make_sorted_tasklist` (src/bin/bulk_fbas_analyzer.rs:197-214,
src/bin/bulk_performance_experiment.rs:148-165). Both programs contain the same function, with
different keys and labels. -/
def makeSortedTasklist {I O K L : Type} [LinearOrder K] [LinearOrder L] (keyI : I → K)
    (labelI : I → L) (labelO : O → L) (inputs : List I) (existingOutputs : Map K O) :
    List (Task I O) :=
  ((inputs.filterMap (fun i =>
      if (existingOutputs.get? (keyI i)).isSome then none else some (Task.analyze i))) ++
    (sortedValues existingOutputs).map Task.reuse).insertionSort
      (fun a b => a.label labelI labelO ≤ b.label labelI labelO)

/-- The task list of `bulk_fbas_analyzer` (src/bin/bulk_fbas_analyzer.rs:52-62); of the output only the
label matters. -/
def analyzerTasks {O : Type} (labelO : O → Text) (inputs : List Input) (lines : List O) :
    List (Task Input O) :=
  makeSortedTasklist Input.label Input.label labelO inputs (loadExistingOutputs labelO lines)

/-! ### Performance experiment -/

/-- `struct InputDataPoint` (src/bin/bulk_performance_experiment.rs:72-76): `top_tier_size` and `run`,
ordered lexicographically. -/
abbrev PerfInput := ℕ ×ₗ ℕ

/-- `generate_inputs` (src/bin/bulk_performance_experiment.rs:117-130). -/
def generateInputs (maxTopTierSize runs : ℕ) (stellarlike : Bool) : List PerfInput :=
  ((rangeFT 1 (maxTopTierSize + 1)).filter (fun m => !stellarlike || m % 3 == 0)).flatMap
    (fun m => (rangeFT 0 runs).map (fun run => toLex (m, run)))

/-- The task list of `bulk_performance_experiment` (src/bin/bulk_performance_experiment.rs:57-66);
`keyO` are the fields `top_tier_size` and `run` of an output. -/
def performanceTasks {O : Type} (keyO : O → PerfInput) (inputs : List PerfInput) (lines : List O) :
    List (Task PerfInput O) :=
  makeSortedTasklist id (fun i => (ofLex i).1) (fun o => (ofLex (keyO o)).1) inputs
    (loadExistingOutputs keyO lines)

/-- The loop `for _ in 0..top_tier_size { fbas.add_generic_node(..) }`
(src/bin/bulk_performance_experiment.rs:275-277, 303-305). -/
def addGenericNodes (q : QuorumSet) : ℕ → Fbas → Except Panic Fbas
  | 0, f => .ok f
  | k + 1, f =>
    match f.addGenericNode q with
    | .error e => .error e
    | .ok (_, f') => addGenericNodes q k f'

/-- Changing the quorum set of node 0 (src/bin/bulk_performance_experiment.rs:281-283, 309-311). -/
def changeNodeZero (q : QuorumSet) (f : Fbas) : Except Panic Fbas :=
  match f.swapQuorumSet 0 ⟨q.threshold + 1, q.validators ++ [0], q.inner⟩ with
  | .error e => .error e
  | .ok (_, f') => .ok f'

/-- The FBAS with `n` times the quorum set `q`, except that the quorum set of node 0 is changed. -/
def almostSymmetricFbas (q : QuorumSet) (n : ℕ) : Except Panic Fbas :=
  match addGenericNodes q n Fbas.new with
  | .error e => .error e
  | .ok f => changeNodeZero q f

/-- `make_almost_ideal_fbas` (src/bin/bulk_performance_experiment.rs:268-286). -/
def makeAlmostIdealFbas (topTierSize : ℕ) : Except Panic Fbas :=
  almostSymmetricFbas
    ⟨Qsc.calculate67pThreshold topTierSize, rangeFT 0 topTierSize, []⟩ topTierSize

/-- The quorum set in `make_almost_ideal_stellarlike_fbas`
(src/bin/bulk_performance_experiment.rs:293-302). -/
def stellarlikeQuorumSet (orgs : ℕ) : QuorumSet :=
  ⟨Qsc.calculate67pThreshold orgs, [],
    (rangeFT 0 orgs).map (fun orgId => ⟨2, [orgId * 3, orgId * 3 + 1, orgId * 3 + 2], []⟩)⟩

/-- `make_almost_ideal_stellarlike_fbas` (src/bin/bulk_performance_experiment.rs:288-315). -/
def makeAlmostIdealStellarlikeFbas (topTierSize : ℕ) : Except Panic Fbas :=
  if topTierSize % 3 = 0 then
    almostSymmetricFbas (stellarlikeQuorumSet (topTierSize / 3)) topTierSize
  else .error .assertion

end Bulk

end FA
