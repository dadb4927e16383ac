/-
Moving and turning shapes (`/repo/src/wfmath/segment.h`, `segment_funcs.h`, `segment.cpp`, `line.h`, `line_funcs.h`, `polygon.h`, `polygon.cpp`, `ball.h`, `ball.cpp`,
`axisbox.h`, `axisbox_funcs.h`, `rotbox.h`) once more, with every arithmetic operation rounded to a `double`. The conventions are those of `Model/Rounded.lean`.
-/
import Verif.Model.RoundedRBox
import Verif.Model.Polygon

namespace WFMath.Fl
open Spec
variable (r : Rounding 53) {n : Nat}

/-! ### Segments -/

/-- segment.h 73 `getCenter`. -/
noncomputable def segCenter (s : Seg n) : Pt n := midpoint r s.p1 s.p2 (1 / 2)
/-- segment.h 82-83 `shift`. -/
noncomputable def segShift (s : Seg n) (v : Vec n) : Seg n := ⟨addVec r s.p1 v, addVec r s.p2 v⟩
/-- segment_funcs.h 35-52 `moveCornerTo`; `none`: failed assertion. -/
noncomputable def segMoveCorner (s : Seg n) (p : Pt n) (i : Nat) : Option (Seg n) :=
  if i = 0 ∨ i = 1 then
    let diff := ptSub r s.p2 s.p1
    some (if i = 0 then ⟨p, addVec r p diff⟩ else ⟨subVec r p diff, p⟩)
  else none
/-- segment.h 85-86 `moveCenterTo`. -/
noncomputable def segMoveCenter (s : Seg n) (p : Pt n) : Seg n := segShift r s (ptSub r p (segCenter r s))
/-- segment_funcs.h 54-65 `rotateCorner(m, corner)`; `none`: failed assertion. -/
noncomputable def segRotateCorner (s : Seg n) (m : RotMat n) (i : Nat) : Option (Seg n) :=
  if i = 0 ∨ i = 1 then some (if i ≠ 0 then ⟨ptRotate r s.p1 m s.p2, s.p2⟩ else ⟨s.p1, ptRotate r s.p2 m s.p1⟩) else none
/-- segment.h 91-92 `rotatePoint(m, p)`. -/
noncomputable def segRotate (s : Seg n) (m : RotMat n) (p : Pt n) : Seg n := ⟨ptRotate r s.p1 m p, ptRotate r s.p2 m p⟩
/-- segment.h 89-90 `rotateCenter(m)`. -/
noncomputable def segRotateCenter (s : Seg n) (m : RotMat n) : Seg n := segRotate r s m (segCenter r s)
/-- segment_funcs.h 67-78 `rotateCorner(q, corner)`; `none`: failed assertion. -/
noncomputable def segRotateCornerQ (s : Seg 3) (q : Quat) (i : Nat) : Option (Seg 3) :=
  if i = 0 ∨ i = 1 then some (if i ≠ 0 then ⟨ptRotateQ r s.p1 q s.p2, s.p2⟩ else ⟨s.p1, ptRotateQ r s.p2 q s.p1⟩) else none
/-- segment.cpp 40-46 `rotatePoint(q, p)`. -/
noncomputable def segRotateQ (s : Seg 3) (q : Quat) (p : Pt 3) : Seg 3 := ⟨ptRotateQ r s.p1 q p, ptRotateQ r s.p2 q p⟩
/-- segment.cpp 48-52 `rotateCenter(q)`. -/
noncomputable def segRotateCenterQ (s : Seg 3) (q : Quat) : Seg 3 := segRotateQ r s q (segCenter r s)
/-- segment.h 107-110 `toParentCoords(origin, rotation)`. -/
noncomputable def segToParent (s : Seg n) (o : Pt n) (m : RotMat n) : Seg n := ⟨toParent r s.p1 o m, toParent r s.p2 o m⟩
/-- segment.h 120-123 `toLocalCoords(origin, rotation)`. -/
noncomputable def segToLocal (s : Seg n) (o : Pt n) (m : RotMat n) : Seg n := ⟨toLocal r s.p1 o m, toLocal r s.p2 o m⟩
/-- segment.cpp 54-59 `toParentCoords(origin, q)`. -/
noncomputable def segToParentQ (s : Seg 3) (o : Pt 3) (q : Quat) : Seg 3 := ⟨toParentQ r s.p1 o q, toParentQ r s.p2 o q⟩
/-- segment.cpp 61-66 `toLocalCoords(origin, q)`. -/
noncomputable def segToLocalQ (s : Seg 3) (o : Pt 3) (q : Quat) : Seg 3 := ⟨toLocalQ r s.p1 o q, toLocalQ r s.p2 o q⟩

/-! ### Lines and plane polygons -/

/-- line_funcs.h 50-58, polygon.cpp 105-111 `shift`. -/
noncomputable def lineShift (ps : Corners n) (v : Vec n) : Corners n := ps.map fun p => addVec r p v
/-- line.h 106-107, polygon.h 107-108 `moveCornerTo`; `none`: access outside the vector. -/
noncomputable def lineMoveCorner (ps : Corners n) (p : Pt n) (i : Nat) : Option (Corners n) := ps[i]?.map fun c => lineShift r ps (ptSub r p c)
/-- line.h 112-113, polygon.h 109-110 `moveCenterTo`. -/
noncomputable def lineMoveCenter (ps : Corners n) (p : Pt n) : Corners n := lineShift r ps (ptSub r p (barycenter r ps))
/-- line_funcs.h 60-69, polygon.cpp 114-120 `rotatePoint`. -/
noncomputable def lineRotate (ps : Corners n) (m : RotMat n) (p : Pt n) : Corners n := ps.map fun x => ptRotate r x m p
/-- line.h 120-121, polygon.h 112-113 `rotateCorner`; `getCorner` returns a copy. `none`: access outside the vector. -/
noncomputable def lineRotateCorner (ps : Corners n) (m : RotMat n) (i : Nat) : Option (Corners n) := ps[i]?.map fun c => lineRotate r ps m c
/-- line.h 126-127, polygon.h 114-115 `rotateCenter`. -/
noncomputable def lineRotateCenter (ps : Corners n) (m : RotMat n) : Corners n := lineRotate r ps m (barycenter r ps)
/-- polygon.cpp 123-131 `toParentCoords(origin, rotation)`. -/
noncomputable def polyToParent (ps : Corners n) (o : Pt n) (m : RotMat n) : Corners n := ps.map fun p => toParent r p o m
/-- polygon.cpp 154-162 `toLocalCoords(origin, rotation)`. -/
noncomputable def polyToLocal (ps : Corners n) (o : Pt n) (m : RotMat n) : Corners n := ps.map fun p => toLocal r p o m

/-! ### Balls -/

/-- ball.h 113 `shift`. -/
noncomputable def ballShift (b : Ball n) (v : Vec n) : Ball n := ⟨addVec r b.center v, b.radius⟩
/-- ball.h 119-120 `rotatePoint(m, p)`. -/
noncomputable def ballRotate (b : Ball n) (m : RotMat n) (p : Pt n) : Ball n := ⟨ptRotate r b.center m p, b.radius⟩
/-- ball.cpp 49-52 `rotatePoint(q, p)`. -/
noncomputable def ballRotateQ (b : Ball 3) (q : Quat) (p : Pt 3) : Ball 3 := ⟨ptRotateQ r b.center q p, b.radius⟩
/-- ball.h 133-135 `toParentCoords(origin, rotation)`. -/
noncomputable def ballToParent (b : Ball n) (o : Pt n) (m : RotMat n) : Ball n := Ball.mk' (toParent r b.center o m) b.radius
/-- ball.h 145-147 `toLocalCoords(origin, rotation)`. -/
noncomputable def ballToLocal (b : Ball n) (o : Pt n) (m : RotMat n) : Ball n := Ball.mk' (toLocal r b.center o m) b.radius

/-! ### Boxes as frames -/

/-- axisbox_funcs.h 192-196 `Point::toParentCoords(AxisBox)`. -/
noncomputable def toParentBox (p : Pt n) (c : Box n) : Pt n := addVec r c.low (ptSub r p Pt.origin)
/-- axisbox_funcs.h 198-202 `Point::toLocalCoords(AxisBox)`. -/
noncomputable def toLocalBox (p : Pt n) (c : Box n) : Pt n := addVec r Pt.origin (ptSub r p c.low)

/-! ### Rotated boxes -/

/-- rotbox.h 106-107 `shift`. -/
noncomputable def rbShift (b : RBox n) (v : Vec n) : RBox n := { b with corner := addVec r b.corner v }
/-- rotbox.h 108-109 `moveCornerTo`; `none`: failed assertion. -/
noncomputable def rbMoveCorner (b : RBox n) (p : Pt n) (i : Nat) : Option (RBox n) := (rbCorner r b i).map fun c => rbShift r b (ptSub r p c)
/-- rotbox.h 110-111 `moveCenterTo`. -/
noncomputable def rbMoveCenter (b : RBox n) (p : Pt n) : RBox n := rbShift r b (ptSub r p (rbCenter r b))
/-- rotbox.h 113-114 `rotateCorner(m, corner)`, in the way of `rbRotate`; `none`: failed assertion. -/
noncomputable def rbRotateCorner (b : RBox n) (m : RotMat n) (i : Nat) : Option (RBox n) := (rbCorner r b i).map fun c => rbRotate r b m c
/-- rotbox.h 115-116 `rotateCenter(m)`, in the way of `rbRotate`. -/
noncomputable def rbRotateCenter (b : RBox n) (m : RotMat n) : RBox n := rbRotate r b m (rbCenter r b)

end WFMath.Fl
