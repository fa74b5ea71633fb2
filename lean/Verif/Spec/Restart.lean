import Verif.Spec.Backup
import Verif.Model.Start

/-! # Specification: settings across restarts -/

namespace PF.Spec

/-- The same criteria, in the same order: the same names and the same values with the same numbers.  Their states can
differ. -/
def SameDefinitions (cs cs' : List Criterion) : Prop :=
  Alike (fun c c' => c'.name = c.name ∧ c'.type = c.type) cs cs'

end PF.Spec
