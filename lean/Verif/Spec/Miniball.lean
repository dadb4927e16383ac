/- Specification of the smallest enclosing ball. -/
import Verif.Spec.Shapes
import Mathlib.LinearAlgebra.AffineSpace.AffineSubspace.Basic

namespace WFMath.Spec
variable {n : Nat}

/-- The ball contains all the points, and no ball of smaller radius does. -/
def IsSmallest (pts : Set (Fin n → ℝ)) (b : Ball n) : Prop :=
  pts ⊆ ballSet b ∧ ∀ (c : Fin n → ℝ) (r : ℝ), (∀ p ∈ pts, eucl p c ≤ r) → b.radius ≤ r

/-- No point is nearly, but not exactly, in the line, plane or other flat through some of the points: its distance from the flat, times the
square root of 2, is at least `10⁻¹⁶ R`. -/
def WellSpread (pts : Set (Fin n → ℝ)) (R : ℝ) : Prop :=
  ∀ F ⊆ pts, F.Nonempty → ∀ p ∈ pts, p ∉ affineSpan ℝ F → ∀ x ∈ affineSpan ℝ F, (R / 10 ^ 16) ^ 2 ≤ 2 * eucl p x ^ 2

end WFMath.Spec
