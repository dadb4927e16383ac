/-
The test of a rotated box against a box in space with every operation on doubles rounded: `Intersect(RotBox<3>, AxisBox<3>)` of intersect.cpp and
`Intersect(RotBox, RotBox)` of intersect.h. As in Model/Rounded.lean there is no overflow or underflow.
-/
import Verif.Model.RoundedRBox

namespace WFMath
namespace Fl
open Spec
variable (r : Rounding 53)

/-- intersect.cpp 186-208 and 212-234: the two running sums (lower, upper) from two contributions. -/
noncomputable def satSums (v1 v2 : ℝ) : ℝ × ℝ :=
  let s := if v1 > 0 then (0, v1) else (v1, 0)
  if v2 > 0 then (s.1, r (s.2 + v2)) else (r (s.1 + v2), s.2)
/-- intersect.cpp 168-242: one of the nine tests, as `WFMath.satStep`. The normal (`WFMath.satAxis`, 143-166) and the rows are taken from the matrix without arithmetic. -/
noncomputable def satStep (b : RBox 3) (a : Box 3) (proper : Bool) (i j : Fin 3) : Option Bool :=
  let axis := satAxis b.orient i j
  if sqrMag r axis < r (epsilon * epsilon) then none
  else
    let bSize := ptSub r a.high a.low
    let sep := ptSub r a.low b.corner
    let bs := satSums r (r (axis.elem (j + 1) * bSize.elem (j + 1))) (r (axis.elem (j + 1 + 1) * bSize.elem (j + 1 + 1)))
    let rs := satSums r (r (dot r (b.orient.row (i + 1)) axis * b.size.elem (i + 1))) (r (dot r (b.orient.row (i + 1 + 1)) axis * b.size.elem (i + 1 + 1)))
    let dist := dot r sep axis
    some (!(greater r (r (rs.1 - dist)) bs.2 proper || less r (r (rs.2 - dist)) bs.1 proper))
/-- intersect.cpp 136-243: the loops over the nine normals. -/
noncomputable def satLoop (b : RBox 3) (a : Box 3) (proper : Bool) : List (Fin 3 × Fin 3) → Bool
  | [] => true
  | (i, j) :: ps =>
    match satStep r b a proper i j with
    | none => true
    | some false => false
    | some true => satLoop b a proper ps
/-- intersect.cpp 112-246 `Intersect(RotBox<3>, AxisBox<3>)`. -/
noncomputable def interRB3 (b : RBox 3) (a : Box 3) (proper : Bool) : Bool :=
  if !interBB r (rbBox r b) a proper then false
  else if !interBB r (rbBox r (rbSeen r b a)) (rbFlat r b) proper then false
  else satLoop r b a proper satPairs
/-- intersect.h 475-481 `Intersect(RotBox, RotBox)` in three dimensions. -/
noncomputable def interRR3 (b1 b2 : RBox 3) (proper : Bool) : Bool :=
  interRB3 r (rbRotate r b1 b2.orient.inverse b2.corner) (rbFlat r b2) proper

end Fl
end WFMath
