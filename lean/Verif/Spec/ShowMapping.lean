import Verif.Model.ShowMapping
import Verif.Spec.Listing
import Verif.Spec.Mapping

/-! # Specification of the mapping shown of an element -/

namespace PF.Spec

/-- The text of a binding. -/
def BindingText (b : Str × Str) : Str := b.1 ++ s ":" ++ b.2

/-- The bindings that hold for the element at `p`, from those of the subsystem down to its own; those of an element start with
the ones it inherits, the furthest first. -/
def BindingsTo (d : MapDef) (p : Pos) : List (Str × Str) :=
  (List.range (p.length + 1)).flatMap fun n => (d.maps (p.take n)).reverse.flatten

end PF.Spec
