/-
Boxes that contain polygons in space (`/repo/src/wfmath/polygon_intersect.cpp`) with every arithmetic operation rounded to a `double`. The conventions are those of
`Model/Rounded.lean`.
-/
import Verif.Model.RoundedPoly3Move
import Verif.Model.RoundedRBox
import Verif.Model.PolyIntersect

namespace WFMath.Fl
open Spec
variable (r : Rounding 53) {n : Nat}

/-- polygon_intersect.cpp 461-469 `Contains(AxisBox<dim>, Polygon<dim>)`; `none`: failed assertion in `getCorner`. -/
noncomputable def containsBPolyN (b : Box n) (s : Poly n) (proper : Bool) : Option Bool :=
  allCorners (convert r s.orient) (fun c => interBP r b c proper) s.poly

/-- polygon_intersect.cpp 632-648 `Contains(RotBox<dim>, Polygon<dim>)`; `none`: failed assertion in `convert`. -/
noncomputable def containsRPolyN (b : RBox n) (s : Poly n) (proper : Bool) : Option Bool :=
  allCorners (convert r (orRotate r s.orient b.orient.inverse b.corner)) (fun c => interBP r (rbFlat r b) c proper) s.poly

end WFMath.Fl
