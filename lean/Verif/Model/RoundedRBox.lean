/-
Rotated boxes (`/repo/src/wfmath/rotbox.h`, `rotbox_funcs.h` and the tests of `intersect.h` that involve one) once more, with every arithmetic operation rounded
to a `double`. The conventions are those of `Model/Rounded.lean`.
-/
import Verif.Model.RoundedSeg

namespace WFMath.Fl
open Spec
variable (r : Rounding 53) {n : Nat}

/-- rotbox_funcs.h 39-56 `getCorner`; `none`: failed assertion. -/
noncomputable def rbCorner (b : RBox n) (i : Nat) : Option (Pt n) :=
  if i < 2 ^ n then
    if i = 0 then some b.corner
    else
      let dist : Vec n := ⟨fun j => if i.testBit j then b.size.elem j else 0, b.size.valid⟩
      some (addVec r b.corner (vecMat r b.orient dist))
  else none
/-- rotbox.h 89 `getCenter`. -/
noncomputable def rbCenter (b : RBox n) : Pt n := addVec r b.corner (vecMat r b.orient (divBy r b.size 2))

/-- rotbox_funcs.h 78-86: the two running sums for coordinate `i`. -/
noncomputable def bbSums (b : RBox n) (i : Fin n) : List (Fin n) → ℝ × ℝ → ℝ × ℝ
  | [], s => s
  | j :: js, (mn, mx) =>
    let value := r (b.orient.elem j i * b.size.elem j)
    bbSums b i js (if value < 0 then (r (mn + value), mx) else (mn, r (mx + value)))
/-- rotbox_funcs.h 58-97 `boundingBox`. -/
noncomputable def rbBox (b : RBox n) : Box n :=
  ⟨⟨fun i => (bbSums r b i (List.finRange n) (b.corner.elem i, b.corner.elem i)).1, b.valid⟩,
   ⟨fun i => (bbSums r b i (List.finRange n) (b.corner.elem i, b.corner.elem i)).2, b.valid⟩⟩
/-- rotbox.h 128-129 `boundingSphere`. -/
noncomputable def rbSphere (b : RBox n) : Ball n := Ball.mk' (rbCenter r b) (r (mag r b.size / 2))

/-- rotbox.h 117-118 `rotatePoint(m, p)`, up to the call of `checkNormalization` in the product of the matrices, which does nothing while the age is below 20. -/
noncomputable def rbRotate (b : RBox n) (m : RotMat n) (p : Pt n) : RBox n := ⟨ptRotate r b.corner m p, b.size, prod r b.orient m⟩

/-- intersect.h 368-387 `Intersect(RotBox, Point)`. -/
noncomputable def interRP (b : RBox n) (p : Pt n) (proper : Bool) : Bool :=
  let shift := matVec r b.orient (ptSub r p b.corner)
  (List.finRange n).all fun i =>
    if b.size.elem i < 0 then
      !(less r (shift.elem i) (b.size.elem i) proper || greater r (shift.elem i) 0 proper)
    else
      !(greater r (shift.elem i) (b.size.elem i) proper || less r (shift.elem i) 0 proper)
/-- The box `AxisBox(corner0, corner0 + size)` used throughout intersect.h 405-489. -/
noncomputable def rbFlat (b : RBox n) : Box n := Box.ofCorners b.corner (addVec r b.corner b.size)
/-- The point `corner0 + ProdInv(p - corner0, orient)` used throughout intersect.h 421-473. -/
noncomputable def rbUnrotate (b : RBox n) (p : Pt n) : Pt n := addVec r b.corner (matVec r b.orient (ptSub r p b.corner))
/-- intersect.h 415-419 `Contains(AxisBox, RotBox)`. -/
noncomputable def containsBR (a : Box n) (b : RBox n) (proper : Bool) : Bool := containsBB r a (rbBox r b) proper
/-- intersect.h 421-427 `Intersect(RotBox, Ball)`. -/
noncomputable def interRBall (b : RBox n) (c : Ball n) (proper : Bool) : Bool :=
  interBallB r (Ball.mk' (rbUnrotate r b c.center) c.radius) (rbFlat r b) proper
/-- intersect.h 429-435 `Contains(RotBox, Ball)`. -/
noncomputable def containsRBall (b : RBox n) (c : Ball n) (proper : Bool) : Bool :=
  containsBBall r (rbFlat r b) (Ball.mk' (rbUnrotate r b c.center) c.radius) proper
/-- intersect.h 437-443 `Contains(Ball, RotBox)`. -/
noncomputable def containsBallR (c : Ball n) (b : RBox n) (proper : Bool) : Bool :=
  containsBallB r (Ball.mk' (rbUnrotate r b c.center) c.radius) (rbFlat r b) proper
/-- intersect.h 445-453 `Intersect(RotBox, Segment)`. -/
noncomputable def interRS (b : RBox n) (s : Seg n) (proper : Bool) : Bool :=
  interSB r ⟨rbUnrotate r b s.p1, rbUnrotate r b s.p2⟩ (rbFlat r b) proper
/-- intersect.h 455-463 `Contains(RotBox, Segment)`. -/
noncomputable def containsRS (b : RBox n) (s : Seg n) (proper : Bool) : Bool :=
  containsBS r (rbFlat r b) ⟨rbUnrotate r b s.p1, rbUnrotate r b s.p2⟩ proper
/-- The rotated box standing for the axis box `a` in the coordinates of `b`, intersect.h 408-412, intersect.cpp 75-76. The inverse of a matrix is computed without
arithmetic. -/
noncomputable def rbSeen (b : RBox n) (a : Box n) : RBox n := ⟨ptRotate r a.low b.orient.inverse b.corner, ptSub r a.high a.low, b.orient.inverse⟩
/-- intersect.h 405-413 `Contains(RotBox, AxisBox)`. -/
noncomputable def containsRB (b : RBox n) (a : Box n) (proper : Bool) : Bool := containsBR r (rbFlat r b) (rbSeen r b a) proper
/-- intersect.h 483-489 `Contains(RotBox, RotBox)`. -/
noncomputable def containsRR (outer inner : RBox n) (proper : Bool) : Bool :=
  containsBR r (rbFlat r outer) (rbRotate r inner outer.orient.inverse outer.corner) proper
/-- intersect.cpp 67-80 `Intersect(RotBox<2>, AxisBox<2>)`. -/
noncomputable def interRB2 (b : RBox 2) (a : Box 2) (proper : Bool) : Bool :=
  if !interBB r (rbBox r b) a proper then false
  else interBB r (rbBox r (rbSeen r b a)) (rbFlat r b) proper
/-- intersect.h 475-481 `Intersect(RotBox, RotBox)` in two dimensions. -/
noncomputable def interRR2 (b1 b2 : RBox 2) (proper : Bool) : Bool :=
  interRB2 r (rbRotate r b1 b2.orient.inverse b2.corner) (rbFlat r b2) proper

end WFMath.Fl
