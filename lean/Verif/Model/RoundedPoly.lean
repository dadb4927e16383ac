/-
Plane polygons against points, balls and boxes (`/repo/src/wfmath/polygon_intersect.cpp`) once more, with every arithmetic operation rounded to a `double`. The
conventions are those of `Model/Rounded.lean`.
-/
import Verif.Model.RoundedSeg
import Verif.Model.PolyIntersect

namespace WFMath.Fl
open Spec
variable (r : Rounding 53)

/-- polygon_intersect.cpp 1210-1211 `x_intersect`: where the side from `(a0, a1)` to `(b0, b1)` is at height `y`. Also 1263-1264, 1279-1280, 1290-1291, 1300-1301 and
1334-1335 and following, where the factors of the product come in the other order, which does not change the rounded product. -/
noncomputable def sideAt (a0 a1 b0 b1 y : ℝ) : ℝ := r (a0 + r (r (r (b0 - a0) * r (y - a1)) / r (b1 - a1)))

/-- polygon_intersect.cpp 1202-1220: the loop of `Intersect(Polygon<2>, Point<2>)` over the edges left. -/
noncomputable def polyPLoop (p : Pt 2) (proper : Bool) : List (Pt 2 × Pt 2) → Bool → Bool
  | [], hit => hit
  | (i, j) :: es, hit =>
    if between (i.elem 1) (j.elem 1) (p.elem 1) = false then polyPLoop p proper es hit
    else
      let x := sideAt r (i.elem 0) (i.elem 1) (j.elem 0) (j.elem 1) (p.elem 1)
      if equal r (p.elem 0) x epsilon then !proper
      else if p.elem 0 < x then polyPLoop p proper es (!hit)
      else polyPLoop p proper es hit
/-- polygon_intersect.cpp 1196-1221 `Intersect(Polygon<2>, Point<2>)`; also `Contains(Polygon<2>, Point<2>)` (intersect.h 58-62). -/
noncomputable def interPolyP (q : Corners 2) (p : Pt 2) (proper : Bool) : Bool := polyPLoop r p proper (edges q) false

/-- polygon_intersect.cpp 1223-1234 `Contains(Point<2>, Polygon<2>)`. -/
noncomputable def containsPPoly (p : Pt 2) (q : Corners 2) (proper : Bool) : Bool :=
  if proper then decide (q.length = 0) else q.all fun c => ptEqual r p c epsilon

/-- polygon_intersect.cpp 1242-1304: the loop of `Intersect(Polygon<2>, AxisBox<2>)`. -/
noncomputable def polyBLoop (l0 l1 h0 h1 : ℝ) (proper : Bool) : List (Pt 2 × Pt 2) → Bool → Bool
  | [], hit => hit
  | (i, j) :: es, hit =>
    let lowX := sideAt r (i.elem 0) (i.elem 1) (j.elem 0) (j.elem 1) l1
    let lowY := sideAt r (i.elem 1) (i.elem 0) (j.elem 1) (j.elem 0) l0
    let highX := sideAt r (i.elem 0) (i.elem 1) (j.elem 0) (j.elem 1) h1
    let highY := sideAt r (i.elem 1) (i.elem 0) (j.elem 1) (j.elem 0) h0
    if between (i.elem 1) (j.elem 1) l1 && (equal r l0 lowX epsilon || equal r h0 lowX epsilon) then !proper
    else if between (i.elem 1) (j.elem 1) l1 && (decide (l0 < lowX) && decide (h0 > lowX)) then true
    else
      let hit' := if between (i.elem 1) (j.elem 1) l1 && decide (l0 < lowX) then !hit else hit
      if between (i.elem 0) (j.elem 0) l0 && (equal r l1 lowY epsilon || equal r h1 lowY epsilon) then !proper
      else if between (i.elem 0) (j.elem 0) l0 && (decide (l1 < lowY) && decide (h1 > lowY)) then true
      else if between (i.elem 1) (j.elem 1) h1 && (equal r l0 highX epsilon || equal r h0 highX epsilon) then !proper
      else if between (i.elem 1) (j.elem 1) h1 && (decide (l0 < highX) && decide (h0 > highX)) then true
      else if between (i.elem 0) (j.elem 0) h0 && (equal r l1 highY epsilon || equal r h1 highY epsilon) then !proper
      else if between (i.elem 0) (j.elem 0) h0 && (decide (l1 < highY) && decide (h1 > highY)) then true
      else polyBLoop l0 l1 h0 h1 proper es hit'
/-- polygon_intersect.cpp 1236-1305 `Intersect(Polygon<2>, AxisBox<2>)`. -/
noncomputable def interPolyB (p : Corners 2) (b : Box 2) (proper : Bool) : Bool :=
  polyBLoop r (b.low.elem 0) (b.low.elem 1) (b.high.elem 0) (b.high.elem 1) proper (edges p) false

/-- polygon_intersect.cpp 1313-1391: the loop of `Contains(Polygon<2>, AxisBox<2>)`. -/
noncomputable def polyCBLoop (l0 l1 h0 h1 : ℝ) (proper : Bool) : List (Pt 2 × Pt 2) → Bool → Bool
  | [], hit => hit
  | (i, j) :: es, hit =>
    let lowX := sideAt r (i.elem 0) (i.elem 1) (j.elem 0) (j.elem 1) l1
    let lowY := sideAt r (i.elem 1) (i.elem 0) (j.elem 1) (j.elem 0) l0
    let highX := sideAt r (i.elem 0) (i.elem 1) (j.elem 0) (j.elem 1) h1
    let highY := sideAt r (i.elem 1) (i.elem 0) (j.elem 1) (j.elem 0) h0
    let bad := fun (btw : Bool) (a b x : ℝ) =>
      let on := equal r a x epsilon || equal r b x epsilon
      btw && ((on && proper) || (!on && decide (a < x) && decide (b > x)))
    if bad (between (i.elem 1) (j.elem 1) l1) l0 h0 lowX then false
    else
      let hit' := if between (i.elem 1) (j.elem 1) l1 && !(equal r l0 lowX epsilon || equal r h0 lowX epsilon) && decide (l0 < lowX)
        then !hit else hit
      if bad (between (i.elem 0) (j.elem 0) l0) l1 h1 lowY then false
      else if bad (between (i.elem 1) (j.elem 1) h1) l0 h0 highX then false
      else if bad (between (i.elem 0) (j.elem 0) h0) l1 h1 highY then false
      else polyCBLoop l0 l1 h0 h1 proper es hit'
/-- polygon_intersect.cpp 1307-1392 `Contains(Polygon<2>, AxisBox<2>)`. -/
noncomputable def containsPolyB (p : Corners 2) (b : Box 2) (proper : Bool) : Bool :=
  polyCBLoop r (b.low.elem 0) (b.low.elem 1) (b.high.elem 0) (b.high.elem 1) proper (edges p) false
/-- polygon_intersect.cpp 1394-1402 `Contains(AxisBox<2>, Polygon<2>)`. -/
noncomputable def containsBPoly (b : Box 2) (p : Corners 2) (proper : Bool) : Bool := p.all fun q => interBP r b q proper

/-- polygon_intersect.cpp 1404-1422 `Intersect(Polygon<2>, Ball<2>)`; `none`: `back()` of an empty vector. -/
noncomputable def interPolyBall (p : Corners 2) (b : Ball 2) (proper : Bool) : Option Bool :=
  if interPolyP r p b.center proper then some true
  else if p = [] then none
  else some ((edgeSegs (edges p) true).any fun s => interSBall r s b proper)
/-- polygon_intersect.cpp 1424-1442 `Contains(Polygon<2>, Ball<2>)`; `none`: `back()` of an empty vector. -/
noncomputable def containsPolyBall (p : Corners 2) (b : Ball 2) (proper : Bool) : Option Bool :=
  if !interPolyP r p b.center proper then some false
  else if p = [] then none
  else some ((edgeSegs (edges p) true).all fun s => !interSBall r s b (!proper))
/-- polygon_intersect.cpp 1444-1454 `Contains(Ball<2>, Polygon<2>)`. -/
noncomputable def containsBallPoly (b : Ball 2) (p : Corners 2) (proper : Bool) : Bool :=
  p.all fun q => !greater r (sqDist r b.center q) (r (b.radius * b.radius)) proper

end WFMath.Fl
