/- Polygons of the plane against rotated boxes, in floating point: polygon_intersect.cpp. Each operation is rounded by `r`; nothing overflows or underflows. -/
import Verif.Model.RoundedPoly
import Verif.Model.RoundedRBox

namespace WFMath.Fl
open Spec
variable (r : Rounding 53)

/-- polygon_intersect.cpp 1572-1583: the lower and upper bounds of the rotated box along axis `j` of its own coordinates. -/
noncomputable def rbBounds (b : RBox 2) (j : Fin 2) : ℝ × ℝ :=
  if b.size.elem j > 0 then (b.corner.elem j, r (b.corner.elem j + b.size.elem j)) else (r (b.corner.elem j + b.size.elem j), b.corner.elem j)
/-- polygon_intersect.cpp 1585-1600: the ends of the edges, turned into the coordinates of the box, in alternating order. -/
noncomputable def turnedEdges (b : RBox 2) : List (Pt 2 × Pt 2) → Bool → List (Pt 2 × Pt 2)
  | [], _ => []
  | (i, j) :: es, next =>
    let i' := ptRotate r i b.orient.inverse b.corner
    let j' := ptRotate r j b.orient.inverse b.corner
    (if next then (j', i') else (i', j')) :: turnedEdges b es (!next)
/-- polygon_intersect.cpp 1569-1662 `Intersect(Polygon<2>, RotBox<2>)`; `none`: `back()` of an empty vector. -/
noncomputable def interPolyR (p : Corners 2) (b : RBox 2) (proper : Bool) : Option Bool :=
  if p = [] then none
  else some (polyBLoop r (rbBounds r b 0).1 (rbBounds r b 1).1 (rbBounds r b 0).2 (rbBounds r b 1).2 proper (turnedEdges r b (edges p) true) false)
/-- polygon_intersect.cpp 1664-1773 `Contains(Polygon<2>, RotBox<2>)`; `none`: `back()` of an empty vector. -/
noncomputable def containsPolyR (p : Corners 2) (b : RBox 2) (proper : Bool) : Option Bool :=
  if p = [] then none
  else some (polyCBLoop r (rbBounds r b 0).1 (rbBounds r b 1).1 (rbBounds r b 0).2 (rbBounds r b 1).2 proper (turnedEdges r b (edges p) true) false)

end WFMath.Fl
