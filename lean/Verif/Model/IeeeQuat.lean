/-
Quaternions made from numbers (`quaternion.cpp`, `atlasconv.h`), with the range of doubles, as in `Model/Ieee.lean`.
-/
import Verif.Model.IeeeMove

namespace WFMath.Ie
open Spec
variable (g : Nearest)

/-- quaternion.cpp 49-62 `Quaternion(w, x, y, z)`. -/
noncomputable def qOfComponents (w x y z : Dbl) : DQuat :=
  let norm := Dbl.sqrt g (Dbl.add g (Dbl.add g (Dbl.add g (Dbl.mul g w w) (Dbl.mul g x x)) (Dbl.mul g y y)) (Dbl.mul g z z))
  ⟨Dbl.div g w norm, ![Dbl.div g x norm, Dbl.div g y norm, Dbl.div g z norm], true⟩

/-- `std::isfinite`. -/
def isFinite : Dbl → Bool
  | .num _ => true
  | _ => false

/-- atlasconv.h 127-170 `Quaternion::fromAtlas`, after the four numbers of the list have been read (`Model/Atlas.lean` reads them); `q` is the quaternion before the call. -/
noncomputable def qFromAtlas (q : DQuat) (v : Fin 3 → Dbl) (w : Dbl) : DQuat :=
  if ((List.finRange 3).all fun i => isFinite (v i)) = false then ⟨q.w, v, false⟩
  else if isFinite w = false then ⟨w, v, false⟩
  else
    let norm := Dbl.sqrt g (Dbl.add g (Dbl.mul g w w) (sqrMag g v))
    if Dbl.le norm (.num epsilon) then ⟨w, v, false⟩ else ⟨Dbl.div g w norm, fun i => Dbl.div g (v i) norm, true⟩

/-- quaternion.cpp 228-245 `rotation(axis, angle)`, the axis valid; `c` and `s` are what `std::cos` and `std::sin` return for half the angle, `q` the quaternion before the call. -/
noncomputable def qRotationAxis (q : DQuat) (axis : Fin 3 → Dbl) (c s : Dbl) : DQuat :=
  if Dbl.lt (mag g axis) (.num epsilon) then { q with valid := false }
  else ⟨c, vscale g axis (Dbl.div g s (mag g axis)), true⟩

end WFMath.Ie
