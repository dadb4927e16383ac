/-
Points and balls of any dimension that are moved again and again (`/repo/src/wfmath/point.h`, `point.cpp`, `ball.h`, `ball.cpp`), by matrices and in space by quaternions, with every
arithmetic operation rounded to a `double`. The conventions are those of `Model/Rounded.lean`.
-/
import Verif.Model.RoundedMove

namespace WFMath.Fl
open Spec
variable {n : Nat} (r : Rounding 53)

/-- ball.cpp 54-58 `toParentCoords(origin, q)`. -/
noncomputable def ballToParentQ (b : Ball 3) (o : Pt 3) (q : Quat) : Ball 3 := Ball.mk' (toParentQ r b.center o q) b.radius
/-- ball.cpp 60-64 `toLocalCoords(origin, q)`. -/
noncomputable def ballToLocalQ (b : Ball 3) (o : Pt 3) (q : Quat) : Ball 3 := Ball.mk' (toLocalQ r b.center o q) b.radius

/-- One call that moves a shape: ball.h 113 `shift`, 119-120 and 125 `rotatePoint`, 133-135 and 154 `toParentCoords`, 145-147 and 155 `toLocalCoords`. -/
inductive Step : Nat → Type where
  | shift {n : Nat} (v : Vec n) : Step n
  | rotate {n : Nat} (m : RotMat n) (p : Pt n) : Step n
  | toParent {n : Nat} (o : Pt n) (m : RotMat n) : Step n
  | toLocal {n : Nat} (o : Pt n) (m : RotMat n) : Step n
  | rotateQ (q : Quat) (p : Pt 3) : Step 3
  | toParentQ (o : Pt 3) (q : Quat) : Step 3
  | toLocalQ (o : Pt 3) (q : Quat) : Step 3

/-- The call made for a point: point.h 155 `shift`, 163 `rotatePoint`, 178-180 `toParentCoords`, 188-190 `toLocalCoords`; point.cpp 99-123 for quaternions. -/
noncomputable def Step.point : {n : Nat} → Step n → Pt n → Pt n
  | _, .shift v, x => addVec r x v
  | _, .rotate m p, x => ptRotate r x m p
  | _, .toParent o m, x => Fl.toParent r x o m
  | _, .toLocal o m, x => Fl.toLocal r x o m
  | _, .rotateQ q p, x => ptRotateQ r x q p
  | _, .toParentQ o q, x => Fl.toParentQ r x o q
  | _, .toLocalQ o q, x => Fl.toLocalQ r x o q

/-- The call made for a ball: ball.h 113, 119-120, 133-135, 145-147; ball.cpp 49-64 for quaternions. -/
noncomputable def Step.ball : {n : Nat} → Step n → Ball n → Ball n
  | _, .shift v, b => ballShift r b v
  | _, .rotate m p, b => ballRotate r b m p
  | _, .toParent o m, b => ballToParent r b o m
  | _, .toLocal o m, b => ballToLocal r b o m
  | _, .rotateQ q p, b => ballRotateQ r b q p
  | _, .toParentQ o q, b => ballToParentQ r b o q
  | _, .toLocalQ o q, b => ballToLocalQ r b o q

/-- A point after the calls of a history (point.h 155-190, point.cpp 99-123, called one after the other). -/
noncomputable def stepPoint (h : List (Step n)) (x : Pt n) : Pt n := h.foldl (fun y s => s.point r y) x
/-- A ball after the calls of a history (ball.h 113-147, ball.cpp 49-64, called one after the other). -/
noncomputable def stepBall (h : List (Step n)) (b : Ball n) : Ball n := h.foldl (fun c s => s.ball r c) b

end WFMath.Fl
