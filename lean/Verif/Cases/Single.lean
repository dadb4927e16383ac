/- Cases of the theorems of Props/PolySingle. -/
import Verif.Props.PolySingle

namespace WFMath.Cases
open WFMath Spec

example (proper : Bool) := C110_single flatSquare onePoint (Or.inr onePoint_single) proper
example (proper : Bool) := C111_single onePoint onePoint (Or.inl onePoint_single) (by simp [onePoint]) proper

end WFMath.Cases
