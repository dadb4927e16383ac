/-
Taking back the calls that moved plane polygons (`/repo/src/wfmath/polygon.h`, `polygon.cpp`), with every arithmetic operation rounded to a `double`. The conventions are those of
`Model/Rounded.lean`.
-/
import Verif.Model.RoundedHistory

namespace WFMath.Fl
open Spec

/-- The call a program makes to take a call back: `shift(-v)` with vector_funcs.h 121-133, a rotation by `inverse()` (rotmatrix_funcs.h 301-315) about the same point, and `toLocalCoords`
for `toParentCoords` and the reverse (polygon.cpp 123-162). Negating and transposing do not round. -/
noncomputable def Motion.undo : Motion → Motion
  | .shift v => .shift (-v)
  | .rotate m p => .rotate m.inverse p
  | .toParent o m => .toLocal o m
  | .toLocal o m => .toParent o m

/-- The calls that take a history back, the last call first (the calls of `Motion.undo`, made one after the other). -/
noncomputable def undoMotions (h : List Motion) : List Motion := (h.map Motion.undo).reverse

end WFMath.Fl
