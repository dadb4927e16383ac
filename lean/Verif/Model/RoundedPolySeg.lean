/- Polygons in space against segments in floating point: polygon_intersect.cpp. Each operation is rounded by `r`; nothing overflows or underflows. -/
import Verif.Model.RoundedPoly3Inter
import Verif.Model.RoundedSeg

namespace WFMath.Fl
open Spec
variable {n : Nat} (r : Rounding 53)

/-- intersect.h 318-358 `Intersect(Segment, Segment)`. Doubling and negating are exact. -/
noncomputable def interSS (s1 s2 : Seg n) (proper : Bool) : Bool :=
  let v1 := ptSub r s1.p2 s1.p1
  let v2 := ptSub r s2.p2 s2.p1
  let deltav := ptSub r s2.p1 s1.p1
  let v1sqr := sqrMag r v1
  let v2sqr := sqrMag r v2
  let proj12 := dot r v1 v2
  let proj1delta := dot r v1 deltav
  let proj2delta := dot r v2 deltav
  let denom := r (r (v1sqr * v2sqr) - r (proj12 * proj12))
  if decide (n > 2) && !equal r (r (r (r (v2sqr * proj1delta) * proj1delta) + r (r (v1sqr * proj2delta) * proj2delta)))
      (r (r (r (2 * proj12 * proj1delta) * proj2delta) + r (sqrMag r deltav * denom))) epsilon then false
  else if denom > 0 then
    let coord1 := r (r (r (v2sqr * proj1delta) - r (proj12 * proj2delta)) / denom)
    let coord2 := r (-r (r (v1sqr * proj2delta) - r (proj12 * proj1delta)) / denom)
    lessEq coord1 0 proper && lessEq coord1 1 proper && greaterEq coord2 0 proper && greaterEq coord2 1 proper
  else
    interSP r s1 s2.p1 proper || interSP r s1 s2.p2 proper || interSP r s2 s1.p1 proper || interSP r s2 s1.p2 proper ||
      ((proper && !ptEqual r s1.p1 s1.p2 epsilon) &&
        ((ptEqual r s1.p1 s2.p1 epsilon && ptEqual r s1.p2 s2.p2 epsilon) ||
          (ptEqual r s1.p1 s2.p2 epsilon && ptEqual r s1.p2 s2.p1 epsilon)))

/-- polygon_intersect.cpp 1456-1477 `Intersect(Polygon<2>, Segment<2>)`; `none`: `back()` of an empty vector. -/
noncomputable def interPolyS (p : Corners 2) (s : Seg 2) (proper : Bool) : Option Bool :=
  if interPolyP r p s.p1 proper then some true
  else if p = [] then none
  else some ((edgeSegs (edges p) true).any fun s2 => interSS r s s2 proper)

/-- polygon_intersect.cpp 526-553 `Intersect(Polygon<dim>, Segment<dim>)`; `none`: failed assertion in `offset`. -/
noncomputable def interPolySn (p : Poly n) (s : Seg n) (proper : Bool) : Option Bool :=
  if p.poly.length = 0 then some false
  else (offset r p.orient s.p1).bind fun (v1, p1) => (offset r p.orient s.p2).bind fun (v2, p2) =>
    if dot r v1 v2 > 0 then some false
    else
      let d1 := mag r v1
      let d2 := mag r v2
      if r (d1 + d2) = 0 then interPolyS r p.poly ⟨p1, p2⟩ proper
      else some (interPolyP r p.poly ⟨fun i => r (r (r (p1.elem i * d2) + r (p2.elem i * d1)) / r (d1 + d2)), false⟩ proper)

end WFMath.Fl
