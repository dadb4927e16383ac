/- The largest double, and arrays of finite doubles. The specification used by C145. -/
import Verif.Spec.Ieee

namespace WFMath.Spec

/-- The largest finite double, `(2^53 - 1) 2^971`. -/
noncomputable def dblMax : ℝ := (2 ^ 53 - 1) * (2 : ℝ) ^ (971 : ℤ)

/-- Coordinates that are numbers. -/
def nums {n : Nat} (v : Fin n → ℝ) : Fin n → Dbl := fun i => .num (v i)

end WFMath.Spec
