/-
Boxes turned by an exact rotation, the specification used by the theorems about rotated boxes in floating point (C135).
-/
import Verif.Spec.Shapes

namespace WFMath.Spec
open Matrix
variable {n : Nat}

/-- The points of the box with corner `c` and sizes `s` (which may be negative) along the rows of `R`, with every face moved outwards by `d`: the coordinates of
`x - c` along the rows of `R` are between 0 and `s`, up to `d`. A negative `d` moves the faces inwards. -/
def turnedBox (c s : Fin n → ℝ) (R : Matrix (Fin n) (Fin n) ℝ) (d : ℝ) : Set (Fin n → ℝ) :=
  {x | ∀ i, min 0 (s i) - d ≤ (R *ᵥ (x - c)) i ∧ (R *ᵥ (x - c)) i ≤ max 0 (s i) + d}

/-- The points of the same box that are off its faces. -/
def turnedInterior (c s : Fin n → ℝ) (R : Matrix (Fin n) (Fin n) ℝ) (d : ℝ) : Set (Fin n → ℝ) :=
  {x | ∀ i, min 0 (s i) - d < (R *ᵥ (x - c)) i ∧ (R *ᵥ (x - c)) i < max 0 (s i) + d}

/-- Corner number `i` of that box: the edges whose bit is set in `i` are followed. -/
noncomputable def turnedCorner (c s : Fin n → ℝ) (R : Matrix (Fin n) (Fin n) ℝ) (i : Nat) : Fin n → ℝ :=
  fun k => c k + ∑ j : Fin n, if i.testBit j then s j * R j k else 0

/-- Its centre: half of every edge is followed. -/
noncomputable def turnedCenter (c s : Fin n → ℝ) (R : Matrix (Fin n) (Fin n) ℝ) : Fin n → ℝ :=
  fun k => c k + ∑ j : Fin n, s j / 2 * R j k

end WFMath.Spec
