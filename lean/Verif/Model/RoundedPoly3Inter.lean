/- Polygons in space against points and balls in floating point: polygon_intersect.cpp. Each operation is rounded by `r`; nothing overflows or underflows. -/
import Verif.Model.RoundedPoly3
import Verif.Model.RoundedPoly
import Verif.Model.PolyIntersect

namespace WFMath.Fl
open Spec
variable {n : Nat} (r : Rounding 53)

/-- polygon_intersect.cpp 39-52 `Poly2Orient::offset`, the loop `j = 0, 1` unrolled: the vector from the plane to the point, and the nearest point of the plane in plane
coordinates; `none`: failed assertion. -/
noncomputable def offset (o : Orient n) (pd : Pt n) : Option (Vec n × Pt 2) :=
  if o.origin.valid = false then none
  else
    let out := ptSub r pd o.origin
    let c0 := dot r out o.ax0
    let out1 := sub r out (scale r o.ax0 c0)
    let c1 := dot r out1 o.ax1
    some (sub r out1 (scale r o.ax1 c1), ⟨![c0, c1], false⟩)

/-- polygon_intersect.cpp 54-64 `Poly2Orient::checkContained`. -/
noncomputable def checkContained (o : Orient n) (pd : Pt n) : Option (Bool × Pt 2) :=
  (offset r o pd).map fun (off, p2) => (decide (sqrMag r off < r (epsilon * sum r fun i => r (pd.elem i * pd.elem i))), p2)

/-- polygon_intersect.cpp 344-351 `Intersect(Polygon<dim>, Point<dim>)`; `none`: failed assertion. -/
noncomputable def interPolyPn (s : Poly n) (p : Pt n) (proper : Bool) : Option Bool :=
  if s.poly.length = 0 then some false
  else (checkContained r s.orient p).map fun (c, p2) => c && interPolyP r s.poly p2 proper

/-- polygon_intersect.cpp 488-503 `Contains(Polygon<dim>, Ball<dim>)`. -/
noncomputable def containsPolyBallN (s : Poly n) (b : Ball n) (proper : Bool) : Option Bool :=
  if s.poly.length = 0 then some false
  else if b.radius > 0 then some false
  else (checkContained r s.orient b.center).map fun (c, c2) => c && interPolyP r s.poly c2 proper

/-- polygon_intersect.cpp 505-524 `Contains(Ball<dim>, Polygon<dim>)`. -/
noncomputable def containsBallPolyN (b : Ball n) (s : Poly n) (proper : Bool) : Option Bool :=
  if s.poly.length = 0 then some true
  else (offset r s.orient b.center).map fun (off, c2) =>
    let dist := r (r (b.radius * b.radius) - sqrMag r off)
    if less r dist 0 proper then false else s.poly.all fun q => !less r dist (sqDist r c2 q) proper

/-- polygon_intersect.cpp 471-486 `Intersect(Polygon<dim>, Ball<dim>)`; `none` also: the root of a negative number is taken, and a ball whose radius
is not a number is passed on. -/
noncomputable def interPolyBallN (s : Poly n) (b : Ball n) (proper : Bool) : Option Bool :=
  if s.poly.length = 0 then some false
  else (offset r s.orient b.center).bind fun (off, c2) =>
    let dist := r (r (b.radius * b.radius) - sqrMag r off)
    if less r dist 0 proper then some false else if dist < 0 then none else interPolyBall r s.poly (Ball.mk' c2 (r (Real.sqrt dist))) proper

end WFMath.Fl
