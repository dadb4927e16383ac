/-
Balls of the plane that are moved again and again together with polygons (`/repo/src/wfmath/ball.h`), with every arithmetic operation rounded to a `double`. The conventions are
those of `Model/Rounded.lean`.
-/
import Verif.Model.RoundedHistory

namespace WFMath.Fl
open Spec
variable (r : Rounding 53)

/-- The call made for a ball: ball.h 113 `shift`, 119-120 `rotatePoint`, 133-135 `toParentCoords`, 145-147 `toLocalCoords`. -/
noncomputable def Motion.ball : Motion → Ball 2 → Ball 2
  | .shift v, b => ballShift r b v
  | .rotate m p, b => ballRotate r b m p
  | .toParent o m, b => ballToParent r b o m
  | .toLocal o m, b => ballToLocal r b o m

/-- A ball after the calls of a history (ball.h 113-147, called one after the other). -/
noncomputable def moveBall (h : List Motion) (b : Ball 2) : Ball 2 := h.foldl (fun c mo => mo.ball r c) b

end WFMath.Fl
