/- The plane of a polygon in space as it is stored: an origin and up to two axes. -/
import Verif.Model.Polygon

namespace WFMath.Spec
open Matrix
variable {n : Nat}

/-- The stored axes are unit vectors and perpendicular up to `η`; there is a second axis only where there is a first one. -/
structure NearBasis (o : Orient n) (η : ℝ) : Prop where
  second : o.ax1.valid = true → o.ax0.valid = true
  unit0 : o.ax0.valid = true → |o.ax0.elem ⬝ᵥ o.ax0.elem - 1| ≤ η
  unit1 : o.ax1.valid = true → |o.ax1.elem ⬝ᵥ o.ax1.elem - 1| ≤ η
  perp : o.ax1.valid = true → |o.ax0.elem ⬝ᵥ o.ax1.elem| ≤ η

/-- How far a corner is from the origin of the plane, from its coordinates in the plane. -/
def reach (p : Pt 2) : ℝ := |p.elem 0| + |p.elem 1|

end WFMath.Spec
