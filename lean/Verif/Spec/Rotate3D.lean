/- Specification of the rotation of space about an axis. -/
import Verif.Spec.Quaternion

namespace WFMath.Spec
open Matrix

/-- Rodrigues' formula: the rotation of `v` by the angle `θ` about the unit vector `a` (counterclockwise when `a` points
at the viewer). -/
noncomputable def rodrigues (a : Fin 3 → ℝ) (θ : ℝ) (v : Fin 3 → ℝ) : Fin 3 → ℝ :=
  Real.cos θ • v + ((1 - Real.cos θ) * (a ⬝ᵥ v)) • a + Real.sin θ • (a ⨯₃ v)

/-- The unit vector along an axis. -/
noncomputable def dir (axis : Vec 3) : Fin 3 → ℝ := axis.mag⁻¹ • axis.elem

/-- Coordinate vectors. -/
def basisVec (c : Fin 3) : Vec 3 := ⟨fun i => if i = c then 1 else 0, false⟩

/-- None of the cross products formed when the matrix of a rotation about `axis` is built is flushed to 0. -/
def AxisExact (axis : Vec 3) : Prop :=
  ∀ c, CrossExact axis (basisVec c) ∧ CrossExact axis (cross3 axis (basisVec c))

end WFMath.Spec
