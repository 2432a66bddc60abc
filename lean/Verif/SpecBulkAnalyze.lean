import Verif.Model.BulkAnalyze
import Verif.SpecBulk
import Verif.SpecTool
import Verif.SpecJson
import Verif.SpecNames

/-!
# Specification: what the bulk analyzer writes
-/

namespace FA.Spec
open FA Bulk

/-- `lo`, `hi` and `mean` are the smallest, largest and mean size of the sets in the list; all are 0 if there
are no sets. -/
structure Sizes (L : List NodeSet) (lo hi : ℕ) (mean : ℚ) : Prop where
  bounds : ∀ S ∈ L, lo ≤ S.card ∧ S.card ≤ hi
  attained : L ≠ [] → (∃ S ∈ L, S.card = lo) ∧ ∃ S ∈ L, S.card = hi
  empty : L = [] → lo = 0 ∧ hi = 0 ∧ mean = 0
  mean : mean * L.length = (L.map Finset.card).sum

/-- What the columns of a data point are about. -/
inductive Kind where
  | nodes | orgs | isps | ctries
deriving DecidableEq

/-- The columns of one kind. -/
structure Columns where
  topTierSize : Option ℕ
  mbs : Option ℕ × Option ℕ × Option ℚ
  mss : Option ℕ × Option ℕ × Option ℚ
  mq : Option ℕ × Option ℕ × Option ℚ

/-- Empty columns. -/
def Columns.absent : Columns := ⟨none, (none, none, none), (none, none, none), (none, none, none)⟩

/-- The columns of a data point. -/
def columns (d : DataPoint) : Kind → Columns
  | .nodes => ⟨some d.topTierSize, (some d.mbsMin, some d.mbsMax, some d.mbsMean),
      (some d.mssMin, some d.mssMax, some d.mssMean), (some d.mqMin, some d.mqMax, some d.mqMean)⟩
  | .orgs => ⟨d.orgsTopTierSize, (d.orgsMbsMin, d.orgsMbsMax, d.orgsMbsMean),
      (d.orgsMssMin, d.orgsMssMax, d.orgsMssMean), (d.orgsMqMin, d.orgsMqMax, d.orgsMqMean)⟩
  | .isps => ⟨d.ispsTopTierSize, (d.ispsMbsMin, d.ispsMbsMax, d.ispsMbsMean),
      (d.ispsMssMin, d.ispsMssMax, d.ispsMssMean), (d.ispsMqMin, d.ispsMqMax, d.ispsMqMean)⟩
  | .ctries => ⟨d.ctriesTopTierSize, (d.ctriesMbsMin, d.ctriesMbsMax, d.ctriesMbsMean),
      (d.ctriesMssMin, d.ctriesMssMax, d.ctriesMssMean), (d.ctriesMqMin, d.ctriesMqMax, d.ctriesMqMean)⟩

/-- Three columns that describe the sizes of the sets in the list. -/
def ShowsSizes (L : List NodeSet) (c : Option ℕ × Option ℕ × Option ℚ) : Prop :=
  ∃ lo hi mean, c = (some lo, some hi, some mean) ∧ Sizes L lo hi mean

/-- There is information about this kind of groups. -/
def HasInformation (r : RawFbas) (organizations : Option Json) : Kind → Prop
  | .nodes => True
  | .orgs => organizations ≠ none
  | .isps => ∃ n ∈ r, n.isp ≠ none
  | .ctries => ∃ n ∈ r, n.geoData.join ≠ none

/-- `gs` are the groups of this kind, for FBASs with distinct public keys. -/
def AreGroups (r : RawFbas) (f : Fbas) (organizations : Option Json) (gs : List Grouping) : Kind → Prop
  | .nodes => gs = []
  | .orgs => ∃ j raws, organizations = some j ∧ DescribesGroupings j raws ∧
      List.Forall₂ (fun (raw : RawGrouping) (org : Grouping) => org.name = raw.name ∧
        ∀ v, v ∈ org.validators ↔ ∃ n, f.nodes[v]? = some n ∧ n.publicKey ∈ raw.validators) raws gs
  | .isps => DisjointGroups gs ∧ (∀ org ∈ gs, org.validators ≠ []) ∧
      ∀ x n, r[x]? = some n → (n.isp = none → ∀ org ∈ gs, x ∉ org.validators) ∧
        ∀ s, n.isp = some s → ∃ org ∈ gs, org.name.toList = plainName s ∧ x ∈ org.validators ∧
          ∀ org' ∈ gs, x ∈ org'.validators → org' = org
  | .ctries => DisjointGroups gs ∧ (∀ org ∈ gs, org.validators ≠ []) ∧
      ∀ x n, r[x]? = some n → (n.geoData.join = none → ∀ org ∈ gs, x ∉ org.validators) ∧
        ∀ s, n.geoData.join = some s → ∃ org ∈ gs, org.name.toList = plainName s ∧ x ∈ org.validators ∧
          ∀ org' ∈ gs, x ∈ org'.validators → org' = org

/-- The files of an input contain these documents. -/
def Contents (files : Path → Option Json) (i : Input) (nodes : Json) (organizations : Option Json) :
    Prop :=
  files i.nodesPath = some nodes ∧
    (i.organizationsPath = none → organizations = none) ∧
    ∀ p, i.organizationsPath = some p → ∃ j, files p = some j ∧ organizations = some j

end FA.Spec
