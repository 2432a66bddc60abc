import Verif.Model.Bulk

/-!
# Specification: bulk analyses
-/

namespace FA.Spec
open FA Bulk

/-- The inputs that are analyzed. -/
def analyzed {I O : Type} : List (Task I O) → List I
  | [] => []
  | .analyze i :: ts => i :: analyzed ts
  | .reuse _ :: ts => analyzed ts

/-- The results that are reused. -/
def reused {I O : Type} : List (Task I O) → List O
  | [] => []
  | .analyze _ :: ts => reused ts
  | .reuse o :: ts => o :: reused ts

open Classical in
/-- The lines of a file of results without those that are followed by another line with the same
key. -/
noncomputable def lastLines {O K : Type} (key : O → K) : List O → List O
  | [] => []
  | o :: os => if key o ∈ os.map key then lastLines key os else o :: lastLines key os

open Classical in
/-- The inputs whose key is not that of a line. -/
noncomputable def newInputs {I O K : Type} (keyI : I → K) (keyO : O → K) (inputs : List I)
    (lines : List O) : List I :=
  inputs.filter (fun i => decide (keyI i ∉ lines.map keyO))

/-- The input file is recognized as a file with organizations. -/
def IsOrganizationsFile (p : Path) : Prop :=
  ".json".toList <:+ p.fileName ∧ "organizations".toList <:+: p.fileName

/-- The input file is recognized as a file with nodes. -/
def IsNodesFile (p : Path) : Prop :=
  ".json".toList <:+ p.fileName ∧ ¬ "organizations".toList <:+: p.fileName

end FA.Spec
