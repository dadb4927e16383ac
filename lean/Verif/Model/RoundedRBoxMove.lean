/-
Rotated boxes turned by quaternions, and taken to other frames (`rotbox.h`, `rotbox.cpp`), with every arithmetic operation rounded to a `double`, as in
`Model/Rounded.lean`. As in `Fl.prod` and `Fl.matRotateQ`, orientations are those before the call of `checkNormalization`, which does nothing while the age is below 20.
-/
import Verif.Model.RoundedMove
import Verif.Model.RoundedRot

namespace WFMath.Fl
open Spec
variable (r : Rounding 53) {n : Nat}

/-- rotbox.cpp 38-41 `rotatePoint(q, p)`. -/
noncomputable def rbRotateQ (b : RBox 3) (q : Quat) (p : Pt 3) : RBox 3 := ⟨ptRotateQ r b.corner q p, b.size, matRotateQ r b.orient q⟩
/-- rotbox.cpp 43-46 `rotateCorner(q, corner)`; `none`: there is no such corner. -/
noncomputable def rbRotateCornerQ (b : RBox 3) (q : Quat) (i : Nat) : Option (RBox 3) := (rbCorner r b i).map fun c => rbRotateQ r b q c
/-- rotbox.cpp 48-51 `rotateCenter(q)`. -/
noncomputable def rbRotateCenterQ (b : RBox 3) (q : Quat) : RBox 3 := rbRotateQ r b q (rbCenter r b)
/-- rotbox.cpp 53-58 `toParentCoords(origin, q)`. -/
noncomputable def rbToParentQ (b : RBox 3) (o : Pt 3) (q : Quat) : RBox 3 := ⟨toParentQ r b.corner o q, b.size, matRotateQ r b.orient q⟩
/-- rotbox.cpp 60-65 `toLocalCoords(origin, q)`. -/
noncomputable def rbToLocalQ (b : RBox 3) (o : Pt 3) (q : Quat) : RBox 3 := ⟨toLocalQ r b.corner o q, b.size, matRotateQ r b.orient q.inverse⟩

/-- rotbox.h 133-136 `toParentCoords(origin, rotation)`. -/
noncomputable def rbToParent (b : RBox n) (o : Pt n) (m : RotMat n) : RBox n := ⟨toParent r b.corner o m, b.size, prod r b.orient m⟩
/-- rotbox.h 147-150 `toLocalCoords(origin, rotation)`: the rotation is the left operand of the product. -/
noncomputable def rbToLocal (b : RBox n) (o : Pt n) (m : RotMat n) : RBox n := ⟨toLocal r b.corner o m, b.size, prod r m b.orient⟩
/-- rotbox.h 137-138 `toParentCoords(AxisBox)`. -/
noncomputable def rbToParentBox (b : RBox n) (c : Box n) : RBox n := ⟨toParentBox r b.corner c, b.size, b.orient⟩
/-- rotbox.h 151-152 `toLocalCoords(AxisBox)`. -/
noncomputable def rbToLocalBox (b : RBox n) (c : Box n) : RBox n := ⟨toLocalBox r b.corner c, b.size, b.orient⟩
/-- rotbox.h 139-141 `toParentCoords(RotBox)`, with rotbox_funcs.h 102-106 for the corner. -/
noncomputable def rbToParentRBox (b c : RBox n) : RBox n := rbToParent r b c.corner c.orient
/-- rotbox.h 153-155 `toLocalCoords(RotBox)`, with rotbox_funcs.h 108-112 for the corner. -/
noncomputable def rbToLocalRBox (b c : RBox n) : RBox n := rbToLocal r b c.corner c.orient

end WFMath.Fl
