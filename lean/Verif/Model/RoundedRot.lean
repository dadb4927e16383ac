/-
Building rotations: angles in a coordinate plane, axis and angle, quaternions turned into matrices (`rotmatrix_funcs.h`, `rotmatrix.cpp`,
`vector_funcs.h`, `quaternion.cpp`), with every arithmetic operation rounded to a `double`, as in `Model/Rounded.lean`. The results of `std::sin` and
`std::cos` are off by a bounded amount (`Spec.Trig`).
-/
import Verif.Model.Rounded
import Verif.Spec.Trig

namespace WFMath.Fl
open Spec
variable (r : Rounding 53) (T : Trig) {n : Nat}

/-- rotmatrix_funcs.h 342-374 `rotation(i, j, theta)`; `none`: the axes are equal (assertion). Negation is exact. -/
noncomputable def rotation (i j : Fin n) (theta : ℝ) : Option (RotMat n) :=
  if i = j then none
  else some ⟨Matrix.of fun k l =>
      if k = l then (if k = i ∨ k = j then T.cos theta else 1)
      else if k = i ∧ l = j then T.sin theta
      else if k = j ∧ l = i then -T.sin theta
      else 0, false, true, 1⟩

/-- vector_funcs.h 171-184 `rotate(axis1, axis2, theta)`; `none`: the axes are equal (assertion). -/
noncomputable def vecRotate (v : Vec n) (axis1 axis2 : Fin n) (theta : ℝ) : Option (Vec n) :=
  if axis1 = axis2 then none
  else
    let t1 := v.elem axis1
    let t2 := v.elem axis2
    let e := Function.update v.elem axis1 (r (r (t1 * T.cos theta) - r (t2 * T.sin theta)))
    some ⟨Function.update e axis2 (r (r (t2 * T.cos theta) + r (t1 * T.sin theta))), v.valid⟩

/-- quaternion.cpp 207-226 `rotation(int axis, angle)`. -/
noncomputable def qRotationIdx (q : Quat) (axis : ℤ) (angle : ℝ) : Quat :=
  if axis < 0 ∨ axis > 2 then { q with valid := false }
  else
    let half_angle := r (angle / 2)
    ⟨T.cos half_angle, ⟨fun i => if (i.val : ℤ) = axis then T.sin half_angle else 0, true⟩, true, 1⟩

/-- quaternion.cpp 228-245 `rotation(axis, angle)`. -/
noncomputable def qRotationAxis (q : Quat) (axis : Vec 3) (angle : ℝ) : Quat :=
  let half_angle := r (angle / 2)
  if mag r axis < epsilon then { q with valid := false }
  else ⟨T.cos half_angle, scale r axis (r (T.sin half_angle / mag r axis)), axis.valid, 1⟩

/-- quaternion.cpp 247-264 `rotation(axis)`: the angle is the magnitude. -/
noncomputable def qRotationMag (q : Quat) (axis : Vec 3) : Quat :=
  let half_angle := r (mag r axis / 2)
  if mag r axis < epsilon then { q with valid := false }
  else ⟨T.cos half_angle, scale r axis (r (T.sin half_angle / mag r axis)), axis.valid, 1⟩

/-- rotmatrix.cpp 42-66: the array computed by `fromQuaternion`. -/
noncomputable def quatArr (q : Quat) : Matrix (Fin 3) (Fin 3) ℝ :=
  let xx := r (q.vec.elem 0 * q.vec.elem 0)
  let xy := r (q.vec.elem 0 * q.vec.elem 1)
  let xz := r (q.vec.elem 0 * q.vec.elem 2)
  let yy := r (q.vec.elem 1 * q.vec.elem 1)
  let yz := r (q.vec.elem 1 * q.vec.elem 2)
  let zz := r (q.vec.elem 2 * q.vec.elem 2)
  let wvec := scale r q.vec q.w
  !![r (1 - r (2 * r (yy + zz))), r (2 * r (xy - wvec.elem 2)), r (2 * r (xz + wvec.elem 1));
     r (2 * r (xy + wvec.elem 2)), r (1 - r (2 * r (xx + zz))), r (2 * r (yz - wvec.elem 0));
     r (2 * r (xz - wvec.elem 1)), r (2 * r (yz + wvec.elem 0)), r (1 - r (2 * r (xx + yy)))]

/-- rotmatrix.cpp 39-74 `fromQuaternion(q)` (with `not_flip` set, as by default). -/
noncomputable def fromQuaternion (q : Quat) : RotMat 3 := ⟨quatArr r q, false, true, q.age⟩

/-- rotmatrix.cpp 76-96 `rotate(q)`: every row is rotated. Up to the call of `checkNormalization`, which does nothing while the age is below 20. -/
noncomputable def matRotateQ (m : RotMat 3) (q : Quat) : RotMat 3 :=
  ⟨Matrix.of fun i j => (rotateQ r ⟨fun k => m.elem i k, true⟩ q).elem j, m.flip, m.valid && q.valid, m.age + q.age⟩

end WFMath.Fl
