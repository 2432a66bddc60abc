import Verif.SpecGroups
import Verif.SpecOrgs
import Verif.SpecUniform

/-!
# Specification: networks of organizations, merged by organization
-/

namespace FA.Spec
open FA

/-- Every organization is one of the groups. There may be other groups. -/
def AreOrgs (gs : List Grouping) (orgs : Finset NodeSet) : Prop :=
  ∀ o ∈ orgs, ∃ org ∈ gs, org.validators.toFinset = o

/-- `R` consists of the first members of the organizations. -/
def FirstMembers (gs : List Grouping) (orgs : Finset NodeSet) (R : NodeSet) : Prop :=
  ∀ x, x ∈ R ↔ ∃ org ∈ gs, org.validators.toFinset ∈ orgs ∧ org.validators.head? = some x

end FA.Spec
