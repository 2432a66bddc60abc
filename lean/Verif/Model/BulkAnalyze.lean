import Verif.Model.Bulk
import Verif.Model.Tool

/-!
# What the bulk programs compute: src/bin/bulk_fbas_analyzer.rs:216-486,
src/bin/bulk_performance_experiment.rs:169-246

Durations are left out. The files are given by their JSON content; the CSV format is not modelled: files
with results are lists of data points. `par_map` processes the tasks in parallel and yields the results in
the order of the tasks.
-/

namespace FA.Bulk
open FA

/-- `minmaxmean` (src/analysis/results.rs:106-109). -/
def minmaxmean (r : SetVecResult) : ℕ × ℕ × ℚ := (r.min, r.max, r.mean)

/-- `struct OutputDataPoint` (src/bin/bulk_fbas_analyzer.rs:70-119) without durations. -/
structure DataPoint where
  label : Text
  hasQuorumIntersection : Bool
  topTierSize : ℕ
  mbsMin : ℕ
  mbsMax : ℕ
  mbsMean : ℚ
  mssMin : ℕ
  mssMax : ℕ
  mssMean : ℚ
  mqMin : ℕ
  mqMax : ℕ
  mqMean : ℚ
  orgsTopTierSize : Option ℕ := none
  orgsMbsMin : Option ℕ := none
  orgsMbsMax : Option ℕ := none
  orgsMbsMean : Option ℚ := none
  orgsMssMin : Option ℕ := none
  orgsMssMax : Option ℕ := none
  orgsMssMean : Option ℚ := none
  orgsMqMin : Option ℕ := none
  orgsMqMax : Option ℕ := none
  orgsMqMean : Option ℚ := none
  ispsTopTierSize : Option ℕ := none
  ispsMbsMin : Option ℕ := none
  ispsMbsMax : Option ℕ := none
  ispsMbsMean : Option ℚ := none
  ispsMssMin : Option ℕ := none
  ispsMssMax : Option ℕ := none
  ispsMssMean : Option ℚ := none
  ispsMqMin : Option ℕ := none
  ispsMqMax : Option ℕ := none
  ispsMqMean : Option ℚ := none
  ctriesTopTierSize : Option ℕ := none
  ctriesMbsMin : Option ℕ := none
  ctriesMbsMax : Option ℕ := none
  ctriesMbsMean : Option ℚ := none
  ctriesMssMin : Option ℕ := none
  ctriesMssMax : Option ℕ := none
  ctriesMssMean : Option ℚ := none
  ctriesMqMin : Option ℕ := none
  ctriesMqMax : Option ℕ := none
  ctriesMqMean : Option ℚ := none
  standardFormHash : String
deriving DecidableEq

/-- `AnalysisResults` (src/bin/bulk_fbas_analyzer.rs:120-131). -/
abbrev AnalysisResults := Option ℕ × (Option ℕ × Option ℕ × Option ℚ) × (Option ℕ × Option ℕ × Option ℚ) ×
  Option ℕ × Option ℕ × Option ℚ

/-- `merge_fix` (src/bin/bulk_fbas_analyzer.rs:294-297). -/
def mergeFix (g : Groupings) (sets : SetVecResult) : Except Panic (Option ℕ × Option ℕ × Option ℚ) := do
  let merged ← sets.mergedByGroup g
  let (min, max, mean) := minmaxmean merged.minimalSets
  .ok (some min, some max, some mean)

/-- `maybe_merge_sets` (src/bin/bulk_fbas_analyzer.rs:292-324). The methods of the `Analysis` object are
called in the order in which they are written. -/
def maybeMergeSets (env : Env) (a : Analysis) (grouping : Option Groupings) :
    Except Panic (AnalysisResults × Analysis) :=
  match grouping with
  | none => .ok ((none, (none, none, none), (none, none, none), none, none, none), a)
  | some g => do
    let (t, a) ← a.topTier env
    let t ← t.mergedByGroup g
    let (mq, a) ← a.minimalQuorums env
    let mq ← mergeFix g mq
    let (mbs, a) ← a.minimalBlockingSets env
    let mbs ← mergeFix g mbs
    let (mss, a) ← a.minimalSplittingSets env
    let mss ← mergeFix g mss
    .ok ((some t.len, mbs, mss, mq), a)

/-- `extend_output_with_orgs_results` (src/bin/bulk_fbas_analyzer.rs:326-334). -/
def extendWithOrgs (r : AnalysisResults) (d : DataPoint) : DataPoint :=
  { d with
    orgsTopTierSize := r.1
    orgsMbsMin := r.2.1.1
    orgsMbsMax := r.2.1.2.1
    orgsMbsMean := r.2.1.2.2
    orgsMssMin := r.2.2.1.1
    orgsMssMax := r.2.2.1.2.1
    orgsMssMean := r.2.2.1.2.2
    orgsMqMin := r.2.2.2.1
    orgsMqMax := r.2.2.2.2.1
    orgsMqMean := r.2.2.2.2.2 }

/-- `extend_output_with_isps_results` (src/bin/bulk_fbas_analyzer.rs:335-343). -/
def extendWithIsps (r : AnalysisResults) (d : DataPoint) : DataPoint :=
  { d with
    ispsTopTierSize := r.1
    ispsMbsMin := r.2.1.1
    ispsMbsMax := r.2.1.2.1
    ispsMbsMean := r.2.1.2.2
    ispsMssMin := r.2.2.1.1
    ispsMssMax := r.2.2.1.2.1
    ispsMssMean := r.2.2.1.2.2
    ispsMqMin := r.2.2.2.1
    ispsMqMax := r.2.2.2.2.1
    ispsMqMean := r.2.2.2.2.2 }

/-- `extend_output_with_ctries_results` (src/bin/bulk_fbas_analyzer.rs:344-353). -/
def extendWithCtries (r : AnalysisResults) (d : DataPoint) : DataPoint :=
  { d with
    ctriesTopTierSize := r.1
    ctriesMbsMin := r.2.1.1
    ctriesMbsMax := r.2.1.2.1
    ctriesMbsMean := r.2.1.2.2
    ctriesMssMin := r.2.2.1.1
    ctriesMssMax := r.2.2.1.2.1
    ctriesMssMean := r.2.2.1.2.2
    ctriesMqMin := r.2.2.2.1
    ctriesMqMax := r.2.2.2.2.1
    ctriesMqMean := r.2.2.2.2.2 }

/-- `maybe_load_organizations` (src/bin/bulk_fbas_analyzer.rs:433-438). -/
def maybeLoadOrganizations (organizations : Option Json) (f : Fbas) : Except Panic (Option Groupings) :=
  match organizations with
  | none => .ok none
  | some j => Tool.someE (Groupings.organizationsFromJson j f)

/-- `maybe_load_isps` (src/bin/bulk_fbas_analyzer.rs:439-446). -/
def maybeLoadIsps (order : List String → List String) (nodes : Json) (f : Fbas) :
    Except Panic (Option Groupings) := do
  let isps ← Groupings.ispsFromJson order nodes f
  .ok (if isps.groupings.length ≠ 0 then some isps else none)

/-- `maybe_load_countries` (src/bin/bulk_fbas_analyzer.rs:447-454). -/
def maybeLoadCountries (order : List String → List String) (nodes : Json) (f : Fbas) :
    Except Panic (Option Groupings) := do
  let countries ← Groupings.countriesFromJson order nodes f
  .ok (if countries.groupings.length ≠ 0 then some countries else none)

/-- `analyze` (src/bin/bulk_fbas_analyzer.rs:231-290); `nodes` and `organizations` are the contents of the
files. `hash` stands for the hexadecimal SHA3-256 hash of the text written for a JSON value. -/
def analyze (env : Env) (order : List String → List String) (hash : Json → String) (label : Text)
    (nodes : Json) (organizations : Option Json) : Except Panic DataPoint := do
  let f ← Fbas.fromJson nodes
  let organizations ← maybeLoadOrganizations organizations f
  let isps ← maybeLoadIsps order nodes f
  let countries ← maybeLoadCountries order nodes f
  let a ← Analysis.new env f
  let (mq, a) ← a.minimalQuorums env
  let (mqMin, mqMax, mqMean) := minmaxmean mq
  let (hasQuorumIntersection, a) ← a.hasQuorumIntersection env
  let (t, a) ← a.topTier env
  let (mbs, a) ← a.minimalBlockingSets env
  let (mbsMin, mbsMax, mbsMean) := minmaxmean mbs
  let (mss, a) ← a.minimalSplittingSets env
  let (mssMin, mssMax, mssMean) := minmaxmean mss
  let (orgsOutput, a) ← maybeMergeSets env a organizations
  let (ispsOutput, a) ← maybeMergeSets env a isps
  let (ctriesOutput, _) ← maybeMergeSets env a countries
  let standardForm ← f.toStandardForm env
  .ok (extendWithCtries ctriesOutput (extendWithIsps ispsOutput (extendWithOrgs orgsOutput
    { label := label
      hasQuorumIntersection := hasQuorumIntersection
      topTierSize := t.len
      mbsMin := mbsMin
      mbsMax := mbsMax
      mbsMean := mbsMean
      mssMin := mssMin
      mssMax := mssMax
      mssMean := mssMean
      mqMin := mqMin
      mqMax := mqMax
      mqMean := mqMean
      standardFormHash := hash standardForm.toJson })))

/-! ### The whole program -/

/-- Reading a file; `none` stands for a file that does not exist or does not contain JSON. -/
def readJson (files : Path → Option Json) (p : Path) : Except Panic Json :=
  match files p with
  | some j => .ok j
  | none => .error .explicit

/-- `analyze_or_reuse` (src/bin/bulk_fbas_analyzer.rs:222-230). Files are read before `analyze`, which does
not matter except for which of several panics occurs. -/
def analyzeOrReuse (env : Env) (order : List String → List String) (hash : Json → String)
    (files : Path → Option Json) : Task Input DataPoint → Except Panic DataPoint
  | .reuse output => .ok output
  | .analyze input => do
    let nodes ← readJson files input.nodesPath
    match input.organizationsPath with
    | none => analyze env order hash input.label nodes none
    | some p =>
      let organizations ← readJson files p
      analyze env order hash input.label nodes (some organizations)

/-- `bulk_do` and `write_csv_via_writer` (src/bin/bulk_fbas_analyzer.rs:216-221, 477-486): the lines written
to the file, which has been emptied before, and the panic that ended the program, if any. -/
def writeAll {I O : Type} (run : Task I O → Except Panic O) : List (Task I O) → List O × Option Panic
  | [] => ([], none)
  | t :: ts =>
    match run t with
    | .error e => ([], some e)
    | .ok o => ((o :: (writeAll run ts).1), (writeAll run ts).2)

/-- `main` (src/bin/bulk_fbas_analyzer.rs:49-62): the content of the output file after the program
has ended; `none` if the program ends with an error before (`extract_inputs`). `existing` are the data
points in the output file if `--update` is used, otherwise the empty list. -/
def main (env : Env) (order : List String → List String) (hash : Json → String)
    (files : Path → Option Json) (inputPaths : List Path) (ignore : Text) (existing : List DataPoint) :
    Option (List DataPoint × Option Panic) :=
  match extractInputs inputPaths ignore with
  | none => none
  | some inputs =>
    some (writeAll (analyzeOrReuse env order hash files)
      (analyzerTasks DataPoint.label inputs existing))

/-! ### Performance experiment -/

/-- `struct OutputDataPoint` (src/bin/bulk_performance_experiment.rs:88-101) without durations. -/
structure PerfDataPoint where
  topTierSize : ℕ
  run : ℕ
  mqNumber : ℕ
  mbsNumber : ℕ
  mssNumber : ℕ
  mqMean : ℚ
  mbsMean : ℚ
  mssMean : ℚ
deriving DecidableEq

/-- `assert!` -/
def assertE (b : Bool) : Except Panic Unit := if b then .ok () else .error .assertion

/-- `analyze` (src/bin/bulk_performance_experiment.rs:191-247). -/
def perfAnalyze (env : Env) (topTierSize run : ℕ) (stellarlike : Bool) :
    Except Panic PerfDataPoint := do
  let f ← if stellarlike then makeAlmostIdealStellarlikeFbas topTierSize
    else makeAlmostIdealFbas topTierSize
  assertE (f.nodes.length == topTierSize)
  let a ← Analysis.new env f
  let (mq, a) ← a.minimalQuorums env
  let (hqi, a) ← a.hasQuorumIntersection env
  assertE hqi
  let (verdict, witness) ← a.alternativeCheck env
  assertE (verdict && witness.isNone)
  let (mbs, a) ← a.minimalBlockingSets env
  let (mss, _) ← a.minimalSplittingSets env
  .ok ⟨topTierSize, run, mq.len, mbs.len, mss.len, mq.mean, mbs.mean, mss.mean⟩

/-- `InputDataPoint::from_output_data_point` (src/bin/bulk_performance_experiment.rs:80-87). -/
def PerfDataPoint.key (d : PerfDataPoint) : PerfInput := toLex (d.topTierSize, d.run)

/-- `analyze_or_reuse` (src/bin/bulk_performance_experiment.rs:179-190). -/
def perfAnalyzeOrReuse (env : Env) (stellarlike : Bool) :
    Task PerfInput PerfDataPoint → Except Panic PerfDataPoint
  | .reuse output => .ok output
  | .analyze input => perfAnalyze env (ofLex input).1 (ofLex input).2 stellarlike

/-- `main` (src/bin/bulk_performance_experiment.rs:54-73): the content of the output file after the
program has ended, and the panic that ended it, if any. `existing` are the data points in the output file
if `--update` is used, otherwise the empty list. -/
def perfMain (env : Env) (maxTopTierSize runs : ℕ) (stellarlike : Bool) (existing : List PerfDataPoint) :
    List PerfDataPoint × Option Panic :=
  writeAll (perfAnalyzeOrReuse env stellarlike)
    (performanceTasks PerfDataPoint.key (generateInputs maxTopTierSize runs stellarlike) existing)

end FA.Bulk
