/-
Sums, midpoints, rotations by matrices and coordinate changes of `/repo/src/wfmath` with IEEE 754 doubles as numbers, as in `Model/Ieee.lean`.

The functions are those of `Model/Rounded.lean`; vectors and points are arrays here and the validity flags, which no arithmetic depends on, are left out.
-/
import Verif.Model.Ieee

namespace WFMath.Ie
open Spec
variable (g : Nearest) {n : Nat}

/-- vector_funcs.h 76-86 `operator+=`, point_funcs.h 99-109 `operator+=(Point, Vector)`. -/
noncomputable def vadd (u v : Fin n → Dbl) : Fin n → Dbl := fun i => Dbl.add g (u i) (v i)
/-- vector_funcs.h 88-98 `operator-=`, point_funcs.h 85-97 `operator-(Point, Point)`, 111-121 `operator-=(Point, Vector)`. -/
noncomputable def vsub (u v : Fin n → Dbl) : Fin n → Dbl := fun i => Dbl.sub g (u i) (v i)
/-- vector_funcs.h 100-108 `operator*=`. -/
noncomputable def vscale (v : Fin n → Dbl) (d : Dbl) : Fin n → Dbl := fun i => Dbl.mul g (v i) d
/-- vector_funcs.h 110-118 `operator/=`. -/
noncomputable def vdiv (v : Fin n → Dbl) (d : Dbl) : Fin n → Dbl := fun i => Dbl.div g (v i) d
/-- point_funcs.h 218-231 `Midpoint`. -/
noncomputable def midpoint (p q : Fin n → Dbl) (d : Dbl) : Fin n → Dbl := fun i => Dbl.add g (Dbl.mul g (p i) (Dbl.sub g (.num 1) d)) (Dbl.mul g (q i) d)
/-- point_funcs.h 202-208: the loop of `Barycenter`. -/
noncomputable def bLoop : Dbl × (Fin n → Dbl) → List (Fin n → Dbl) → Dbl × (Fin n → Dbl)
  | s, [] => s
  | (num, out), p :: ps => bLoop (Dbl.add g num (.num 1), vadd g out p) ps
/-- point_funcs.h 185-216 `Barycenter(points)` of the points `p :: ps`. -/
noncomputable def barycenter (p : Fin n → Dbl) (ps : List (Fin n → Dbl)) : Fin n → Dbl :=
  let (num, out) := bLoop g (.num 1, p) ps
  fun j => Dbl.div g (out j) num

/-- rotmatrix_funcs.h 159-174 `Prod(m, v)`. -/
noncomputable def matVec (m : Fin n → Fin n → Dbl) (v : Fin n → Dbl) : Fin n → Dbl := fun i => sum g fun j => Dbl.mul g (m i j) (v j)
/-- rotmatrix_funcs.h 176-191 `InvProd(m, v)`, which is also `v * m` and `v.rotate(m)` (vector.h 238). -/
noncomputable def vecMat (m : Fin n → Fin n → Dbl) (v : Fin n → Dbl) : Fin n → Dbl := fun i => sum g fun j => Dbl.mul g (m j i) (v j)
/-- point.h 146-147 `rotate(m, p)`. -/
noncomputable def ptRotate (x : Fin n → Dbl) (m : Fin n → Fin n → Dbl) (p : Fin n → Dbl) : Fin n → Dbl := vadd g p (vecMat g m (vsub g x p))
/-- point.h 178-180 `toParentCoords(origin, rotation)`. -/
noncomputable def toParent (x o : Fin n → Dbl) (m : Fin n → Fin n → Dbl) : Fin n → Dbl := vadd g o (vecMat g m (vsub g x fun _ => .num 0))
/-- point.h 188-190 `toLocalCoords(origin, rotation)`. -/
noncomputable def toLocal (x o : Fin n → Dbl) (m : Fin n → Fin n → Dbl) : Fin n → Dbl := vadd g (fun _ => .num 0) (matVec g m (vsub g x o))
/-- axisbox_funcs.h 192-196 `Point::toParentCoords(AxisBox)` for a box with lower corner `lo`. -/
noncomputable def toParentBox (p lo : Fin n → Dbl) : Fin n → Dbl := vadd g lo (vsub g p fun _ => .num 0)
/-- axisbox_funcs.h 198-202 `Point::toLocalCoords(AxisBox)`. -/
noncomputable def toLocalBox (p lo : Fin n → Dbl) : Fin n → Dbl := vadd g (fun _ => .num 0) (vsub g p lo)
/-- rotbox.h 89 `getCenter` of the rotated box with first corner `c`, sides `size` and orientation `m`. -/
noncomputable def rbCenter (c size : Fin n → Dbl) (m : Fin n → Fin n → Dbl) : Fin n → Dbl := vadd g c (vecMat g m (vdiv g size (.num 2)))

/-! ### Quaternions -/

variable (fe : ℤ)

/-- vector.cpp 109-126 `Cross(Vector<3>, Vector<3>)`. -/
noncomputable def cross3 (a b : Fin 3 → Dbl) : Fin 3 → Dbl :=
  let c := fun i j => Dbl.sub g (Dbl.mul g (a i) (b j)) (Dbl.mul g (b i) (a j))
  let delta := scaleEpsilonArr g fe a b (.num epsilon)
  let cut := fun d : Dbl => if Dbl.lt d.abs delta then .num 0 else d
  ![cut (c 1 2), cut (c 2 0), cut (c 0 1)]
/-- vector.cpp 93-100 `Vector<3>::rotate(q)` for the quaternion with scalar part `w` and vector part `x`. -/
noncomputable def rotateQ (v : Fin 3 → Dbl) (w : Dbl) (x : Fin 3 → Dbl) : Fin 3 → Dbl :=
  vadd g (vadd g (vscale g v (Dbl.sub g (Dbl.mul g (Dbl.mul g (.num 2) w) w) (.num 1))) (vscale g (vscale g x (.num 2)) (dot g fe x v)))
    (vscale g (cross3 g fe x v) (Dbl.mul g (.num 2) w))
/-- point.cpp 99-103 `rotate(q, p)`. -/
noncomputable def ptRotateQ (y : Fin 3 → Dbl) (w : Dbl) (x : Fin 3 → Dbl) (p : Fin 3 → Dbl) : Fin 3 → Dbl := vadd g p (rotateQ g fe (vsub g y p) w x)
/-- point.cpp 118-123 `toParentCoords(origin, q)`. -/
noncomputable def toParentQ (y o : Fin 3 → Dbl) (w : Dbl) (x : Fin 3 → Dbl) : Fin 3 → Dbl := vadd g o (rotateQ g fe (vsub g y fun _ => .num 0) w x)
/-- point.cpp 111-116 `toLocalCoords(origin, q)`; the inverse of a quaternion is its conjugate (quaternion.cpp 189-196). -/
noncomputable def toLocalQ (y o : Fin 3 → Dbl) (w : Dbl) (x : Fin 3 → Dbl) : Fin 3 → Dbl :=
  vadd g (fun _ => .num 0) (rotateQ g fe (vsub g y o) w fun i => (x i).neg)

end WFMath.Ie
