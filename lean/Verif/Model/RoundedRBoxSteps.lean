/-
Rotated boxes that are moved again and again (`/repo/src/wfmath/rotbox.h`, `rotbox.cpp`), by matrices and in space by quaternions, with every arithmetic operation rounded
to a `double`. The conventions are those of `Model/Rounded.lean`; as in `Model/RoundedRBoxMove.lean` orientations are those before `checkNormalization`, which does nothing
while the age is below 20.
-/
import Verif.Model.RoundedSteps
import Verif.Model.RoundedRBoxMove

namespace WFMath.Fl
open Spec
variable {n : Nat} (r : Rounding 53)

/-- The call made for a rotated box: rotbox.h 106-107 `shift`, 117-118 `rotatePoint`, 133-136 `toParentCoords`, 147-150 `toLocalCoords`; rotbox.cpp 38-65 for quaternions. -/
noncomputable def Step.rbox : {n : Nat} → Step n → RBox n → RBox n
  | _, .shift v, b => rbShift r b v
  | _, .rotate m p, b => rbRotate r b m p
  | _, .toParent o m, b => rbToParent r b o m
  | _, .toLocal o m, b => rbToLocal r b o m
  | _, .rotateQ q p, b => rbRotateQ r b q p
  | _, .toParentQ o q, b => rbToParentQ r b o q
  | _, .toLocalQ o q, b => rbToLocalQ r b o q

/-- A rotated box after the calls of a history (rotbox.h 106-150, rotbox.cpp 38-65, called one after the other). -/
noncomputable def stepRBox (h : List (Step n)) (b : RBox n) : RBox n := h.foldl (fun c s => s.rbox r c) b

end WFMath.Fl
