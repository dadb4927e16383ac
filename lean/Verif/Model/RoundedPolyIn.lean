/- Segments and rotated boxes that contain polygons, in floating point: polygon_intersect.cpp. Each operation is rounded by `r`; nothing overflows or underflows. -/
import Verif.Model.RoundedPoly3
import Verif.Model.RoundedSeg
import Verif.Model.RoundedRBox
import Verif.Model.PolyIntersect

namespace WFMath.Fl
open Spec
variable {n : Nat} (r : Rounding 53)

/-- polygon_intersect.cpp 1559-1567 `Contains(Segment<2>, Polygon<2>)`. -/
noncomputable def containsSPoly (s : Seg 2) (p : Corners 2) (proper : Bool) : Bool := p.all fun q => interSP r s q proper
/-- polygon_intersect.cpp 1775-1783 `Contains(RotBox<2>, Polygon<2>)`. -/
noncomputable def containsRPoly (b : RBox 2) (p : Corners 2) (proper : Bool) : Bool := p.all fun q => interRP r b q proper
/-- polygon_intersect.cpp 571-588 `Contains(Segment<dim>, Polygon<dim>)`; `expand` with its default tolerance. -/
noncomputable def containsSPolyN (s : Seg n) (p : Poly n) (proper : Bool) : Bool :=
  if p.poly.length = 0 then true
  else
    let (ok1, o1, q1) := expand r p.orient s.p1 epsilon
    if ok1 = false then false
    else
      let (ok2, _, q2) := expand r o1 s.p2 epsilon
      if ok2 = false then false else containsSPoly r ⟨q1, q2⟩ p.poly proper

end WFMath.Fl
