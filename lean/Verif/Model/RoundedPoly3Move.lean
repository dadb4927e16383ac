/-
`/repo/src/wfmath/polygon.h` and `polygon_funcs.h`: moving and turning polygons in space, with every arithmetic operation rounded to a `double`.

The functions are those of `Model/Polygon.lean` with the same branches. Overflow and underflow are not modelled.
-/
import Verif.Model.RoundedPoly3
import Verif.Model.RoundedMove

namespace WFMath.Fl
open Spec
variable {n : Nat} (r : Rounding 53)

/-! ### Poly2Orient -/

/-- polygon.h 235 `Poly2Orient::shift`. -/
noncomputable def orShift (o : Orient n) (v : Vec n) : Orient n :=
  if o.origin.valid then { o with origin := addVec r o.origin v } else o
/-- polygon_funcs.h 248-255 `rotate(m, p)`. -/
noncomputable def orRotate (o : Orient n) (m : RotMat n) (p : Pt n) : Orient n :=
  ⟨ptRotate r o.origin m p, vecMat r m o.ax0, vecMat r m o.ax1⟩
/-- polygon_funcs.h 257-278 `rotate2(m, p)`; `none`: failed assertion. -/
noncomputable def orRotate2 (o : Orient n) (m : RotMat n) (p : Pt 2) : Option (Orient n) :=
  if o.origin.valid = false then none
  else if o.ax0.valid = false then (if p.elem 0 = 0 ∧ p.elem 1 = 0 then some o else none)
  else if o.ax1.valid then
    let sh := add r (scale r o.ax0 (p.elem 0)) (scale r o.ax1 (p.elem 1))
    some ⟨addVec r o.origin (sub r sh (vecMat r m sh)), vecMat r m o.ax0, vecMat r m o.ax1⟩
  else if p.elem 1 ≠ 0 then none
  else
    let sh := scale r o.ax0 (p.elem 0)
    some ⟨addVec r o.origin (sub r sh (vecMat r m sh)), vecMat r m o.ax0, o.ax1⟩
/-- polygon_funcs.h 280-287 `rotate(q, p)`. -/
noncomputable def orRotateQ (o : Orient 3) (q : Quat) (p : Pt 3) : Orient 3 :=
  ⟨ptRotateQ r o.origin q p, rotateQ r o.ax0 q, rotateQ r o.ax1 q⟩
/-- polygon_funcs.h 289-310 `rotate2(q, p)`; `none`: failed assertion. As in `Orient.rotate2Q`, `shift - shift.rotate(q)` rotates `shift` in place
before the subtraction runs, so both operands are the rotated vector. -/
noncomputable def orRotate2Q (o : Orient 3) (q : Quat) (p : Pt 2) : Option (Orient 3) :=
  if o.origin.valid = false then none
  else if o.ax0.valid = false then (if p.elem 0 = 0 ∧ p.elem 1 = 0 then some o else none)
  else if o.ax1.valid then
    let sh := rotateQ r (add r (scale r o.ax0 (p.elem 0)) (scale r o.ax1 (p.elem 1))) q
    some ⟨addVec r o.origin (sub r sh sh), rotateQ r o.ax0 q, rotateQ r o.ax1 q⟩
  else if p.elem 1 ≠ 0 then none
  else
    let sh := rotateQ r (scale r o.ax0 (p.elem 0)) q
    some ⟨addVec r o.origin (sub r sh sh), rotateQ r o.ax0 q, o.ax1⟩
/-- polygon.h 245-248 `toParentCoords(origin, rotation)`. -/
noncomputable def orToParent (o : Orient n) (org : Pt n) (m : RotMat n) : Orient n :=
  ⟨toParent r o.origin org m, vecMat r m o.ax0, vecMat r m o.ax1⟩
/-- polygon.h 260-264 `toLocalCoords(origin, rotation)`. -/
noncomputable def orToLocal (o : Orient n) (org : Pt n) (m : RotMat n) : Orient n :=
  ⟨toLocal r o.origin org m, matVec r m o.ax0, matVec r m o.ax1⟩
/-- polygon.h 251-254 `toParentCoords(RotBox)`; of the origin: rotbox_funcs.h 102-106 `Point::toParentCoords(RotBox)`. -/
noncomputable def orToParentRBox (o : Orient n) (c : RBox n) : Orient n :=
  ⟨addVec r c.corner (vecMat r c.orient (ptSub r o.origin Pt.origin)), vecMat r c.orient o.ax0, vecMat r c.orient o.ax1⟩
/-- polygon.h 267-270 `toLocalCoords(RotBox)`; of the origin: rotbox_funcs.h 108-112 `Point::toLocalCoords(RotBox)`. -/
noncomputable def orToLocalRBox (o : Orient n) (c : RBox n) : Orient n :=
  ⟨addVec r Pt.origin (matVec r c.orient (ptSub r o.origin c.corner)), matVec r c.orient o.ax0, matVec r c.orient o.ax1⟩
/-- polygon.h 273-275 `toParentCoords(origin, q)`; the first axis is rotated twice, the second not at all. -/
noncomputable def orToParentQ (o : Orient 3) (org : Pt 3) (q : Quat) : Orient 3 := ⟨toParentQ r o.origin org q, rotateQ r (rotateQ r o.ax0 q) q, o.ax1⟩
/-- polygon.h 276-279 `toLocalCoords(origin, q)`; the first axis is rotated twice, the second not at all. -/
noncomputable def orToLocalQ (o : Orient 3) (org : Pt 3) (q : Quat) : Orient 3 :=
  ⟨toLocalQ r o.origin org q, rotateQ r (rotateQ r o.ax0 q.inverse) q.inverse, o.ax1⟩

/-! ### Polygon<dim> -/

/-- polygon.h 330 `getCenter`; the centre of the plane polygon is `Barycenter` (polygon.h 79). -/
noncomputable def polyCenter (s : Poly n) : Option (Pt n) := convert r s.orient (barycenter r s.poly)
/-- polygon.h 353-354 `shift`. -/
noncomputable def poly3Shift (s : Poly n) (v : Vec n) : Poly n := { s with orient := orShift r s.orient v }
/-- polygon.h 355-356 `moveCornerTo`. -/
noncomputable def poly3MoveCorner (s : Poly n) (p : Pt n) (i : Nat) : Option (Poly n) :=
  (polyCorner r s i).map fun c => poly3Shift r s (ptSub r p c)
/-- polygon.h 357-358 `moveCenterTo`. -/
noncomputable def poly3MoveCenter (s : Poly n) (p : Pt n) : Option (Poly n) :=
  (polyCenter r s).map fun c => poly3Shift r s (ptSub r p c)
/-- polygon.h 360-361 `rotateCorner(m, corner)`. -/
noncomputable def poly3RotateCorner (s : Poly n) (m : RotMat n) (i : Nat) : Option (Poly n) :=
  (s.poly.getCorner i).bind fun p => (orRotate2 r s.orient m p).map fun o => { s with orient := o }
/-- polygon.h 362-365 `rotateCenter(m)`. -/
noncomputable def poly3RotateCenter (s : Poly n) (m : RotMat n) : Option (Poly n) :=
  if s.poly.length > 0 then (orRotate2 r s.orient m (barycenter r s.poly)).map fun o => { s with orient := o } else some s
/-- polygon.h 366-367 `rotatePoint(m, p)`. -/
noncomputable def poly3Rotate (s : Poly n) (m : RotMat n) (p : Pt n) : Poly n := { s with orient := orRotate r s.orient m p }
/-- polygon.h 370-371 `rotateCorner(q, corner)`. -/
noncomputable def poly3RotateCornerQ (s : Poly 3) (q : Quat) (i : Nat) : Option (Poly 3) :=
  (s.poly.getCorner i).bind fun p => (orRotate2Q r s.orient q p).map fun o => { s with orient := o }
/-- polygon.h 372-375 `rotateCenter(q)`. -/
noncomputable def poly3RotateCenterQ (s : Poly 3) (q : Quat) : Option (Poly 3) :=
  if s.poly.length > 0 then (orRotate2Q r s.orient q (barycenter r s.poly)).map fun o => { s with orient := o } else some s
/-- polygon.h 376-377 `rotatePoint(q, p)`. -/
noncomputable def poly3RotateQ (s : Poly 3) (q : Quat) (p : Pt 3) : Poly 3 := { s with orient := orRotateQ r s.orient q p }
/-- polygon.h 385-387 `toParentCoords(origin, rotation)`. -/
noncomputable def poly3ToParent (s : Poly n) (o : Pt n) (m : RotMat n) : Poly n := { s with orient := orToParent r s.orient o m }
/-- polygon.h 397-399 `toLocalCoords(origin, rotation)`. -/
noncomputable def poly3ToLocal (s : Poly n) (o : Pt n) (m : RotMat n) : Poly n := { s with orient := orToLocal r s.orient o m }
/-- polygon.h 388-389, 249-250 `toParentCoords(AxisBox)`. -/
noncomputable def poly3ToParentBox (s : Poly n) (c : Box n) : Poly n := { s with orient := { s.orient with origin := toParentBox r s.orient.origin c } }
/-- polygon.h 400-401, 265-266 `toLocalCoords(AxisBox)`. -/
noncomputable def poly3ToLocalBox (s : Poly n) (c : Box n) : Poly n := { s with orient := { s.orient with origin := toLocalBox r s.orient.origin c } }
/-- polygon.h 390-391 `toParentCoords(RotBox)`. -/
noncomputable def poly3ToParentRBox (s : Poly n) (c : RBox n) : Poly n := { s with orient := orToParentRBox r s.orient c }
/-- polygon.h 402-403 `toLocalCoords(RotBox)`. -/
noncomputable def poly3ToLocalRBox (s : Poly n) (c : RBox n) : Poly n := { s with orient := orToLocalRBox r s.orient c }
/-- polygon.h 406-407 `toParentCoords(origin, q)`. -/
noncomputable def poly3ToParentQ (s : Poly 3) (o : Pt 3) (q : Quat) : Poly 3 := { s with orient := orToParentQ r s.orient o q }
/-- polygon.h 408-409 `toLocalCoords(origin, q)`. -/
noncomputable def poly3ToLocalQ (s : Poly 3) (o : Pt 3) (q : Quat) : Poly 3 := { s with orient := orToLocalQ r s.orient o q }

end WFMath.Fl
