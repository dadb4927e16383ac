/-
Plane polygons and points that are moved again and again (`/repo/src/wfmath/polygon.h`, `polygon.cpp`, `point.h`, `vector.h`), with every arithmetic operation rounded to a `double`.
The conventions are those of `Model/Rounded.lean`. A history is a list of calls; each call is one of the modelled functions of `Model/RoundedMove.lean`.
-/
import Verif.Model.RoundedMove

namespace WFMath.Fl
open Spec
variable (r : Rounding 53)

/-- One call that moves a shape: polygon.h 106 `shift`, 116 `rotatePoint`, 124-125 `toParentCoords`, 133-134 `toLocalCoords`. -/
inductive Motion where
  | shift (v : Vec 2)
  | rotate (m : RotMat 2) (p : Pt 2)
  | toParent (o : Pt 2) (m : RotMat 2)
  | toLocal (o : Pt 2) (m : RotMat 2)

/-- The call made for a point: point.h 155 `shift`, 163 `rotatePoint`, 178-180 `toParentCoords`, 188-190 `toLocalCoords`. -/
noncomputable def Motion.point : Motion → Pt 2 → Pt 2
  | .shift v, x => addVec r x v
  | .rotate m p, x => ptRotate r x m p
  | .toParent o m, x => Fl.toParent r x o m
  | .toLocal o m, x => Fl.toLocal r x o m

/-- The call made for a plane polygon: polygon.cpp 105-111 `shift`, 114-120 `rotatePoint`, 123-131 `toParentCoords`, 154-162 `toLocalCoords`. -/
noncomputable def Motion.poly : Motion → Corners 2 → Corners 2
  | .shift v, ps => lineShift r ps v
  | .rotate m p, ps => lineRotate r ps m p
  | .toParent o m, ps => polyToParent r ps o m
  | .toLocal o m, ps => polyToLocal r ps o m

/-- A point after the calls of a history (point.h 155-190, called one after the other). -/
noncomputable def movePoint (h : List Motion) (x : Pt 2) : Pt 2 := h.foldl (fun y mo => mo.point r y) x
/-- A plane polygon after the calls of a history (polygon.cpp 105-162, called one after the other). -/
noncomputable def movePoly (h : List Motion) (ps : Corners 2) : Corners 2 := h.foldl (fun s mo => mo.poly r s) ps

end WFMath.Fl
