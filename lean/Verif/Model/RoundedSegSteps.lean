/-
Segments that are moved again and again (`/repo/src/wfmath/segment.h`, `segment.cpp`), by matrices and in space by quaternions, with every arithmetic operation rounded to a
`double`. The conventions are those of `Model/Rounded.lean`.
-/
import Verif.Model.RoundedSteps

namespace WFMath.Fl
open Spec
variable {n : Nat} (r : Rounding 53)

/-- The call made for a segment: segment.h 82-83 `shift`, 91-92 `rotatePoint`, 107-110 `toParentCoords`, 120-123 `toLocalCoords`; segment.cpp 40-66 for quaternions. -/
noncomputable def Step.seg : {n : Nat} → Step n → Seg n → Seg n
  | _, .shift v, s => segShift r s v
  | _, .rotate m p, s => segRotate r s m p
  | _, .toParent o m, s => segToParent r s o m
  | _, .toLocal o m, s => segToLocal r s o m
  | _, .rotateQ q p, s => segRotateQ r s q p
  | _, .toParentQ o q, s => segToParentQ r s o q
  | _, .toLocalQ o q, s => segToLocalQ r s o q

/-- A segment after the calls of a history (segment.h 82-123, segment.cpp 40-66, called one after the other). -/
noncomputable def stepSeg (h : List (Step n)) (s : Seg n) : Seg n := h.foldl (fun u t => t.seg r u) s

end WFMath.Fl
