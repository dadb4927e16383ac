/-
Taking back the calls that moved points, segments and balls (`/repo/src/wfmath/vector_funcs.h`, `rotmatrix_funcs.h`, `quaternion.cpp`, `point.h`), with every arithmetic operation
rounded to a `double`. The conventions are those of `Model/Rounded.lean`.
-/
import Verif.Model.RoundedSegSteps

namespace WFMath.Fl
open Spec
variable {n : Nat}

/-- The call a program makes to take a call back: `shift(-v)` with vector_funcs.h 121-133, a rotation by `inverse()` (rotmatrix_funcs.h 301-315, quaternion.cpp 189-196) about the same
point, and `toLocalCoords` for `toParentCoords` and the reverse (point.h 178-190, point.cpp 111-123). The operators that negate and transpose do not round. -/
noncomputable def Step.undo : {n : Nat} → Step n → Step n
  | _, .shift v => .shift (-v)
  | _, .rotate m p => .rotate m.inverse p
  | _, .toParent o m => .toLocal o m
  | _, .toLocal o m => .toParent o m
  | _, .rotateQ q p => .rotateQ q.inverse p
  | _, .toParentQ o q => .toLocalQ o q
  | _, .toLocalQ o q => .toParentQ o q

/-- The calls that take a history back, the last call first (the calls of `Step.undo`, made one after the other). -/
noncomputable def undoAll (h : List (Step n)) : List (Step n) := (h.map Step.undo).reverse

end WFMath.Fl
