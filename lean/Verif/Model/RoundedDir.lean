/-
Rotations in the plane of two vectors, rotations from one direction to another and reflections (`rotmatrix_funcs.h`, `quaternion.cpp`), with every arithmetic
operation rounded to a `double`, as in `Model/Rounded.lean`.
-/
import Verif.Model.RoundedRot

namespace WFMath.Fl
open Spec
variable (r : Rounding 53) (T : Trig) {n : Nat}

/-- rotmatrix_funcs.h 491-518 `mirror(v)`; `none`: zero vector (assertion). -/
noncomputable def mirrorDir (v : Vec n) : Option (RotMat n) :=
  if ¬ sqrMag r v > 0 then none
  else some ⟨Matrix.of fun i j =>
      if i = j then r (1 - r (r (r (2 * v.elem i) * v.elem i) / sqrMag r v))
      else if i < j then r (r (r (-2 * v.elem i) * v.elem j) / sqrMag r v)
      else r (r (r (-2 * v.elem j) * v.elem i) / sqrMag r v), true, true, 1⟩

/-- rotmatrix_funcs.h 387: the component of `v2` perpendicular to `v1`. -/
noncomputable def vperp (v1 v2 : Vec n) : Vec n := sub r v2 (divBy r (scale r v1 (dot r v1 v2)) (sqrMag r v1))

/-- rotmatrix_funcs.h 376-419 `rotation(v1, v2, theta)`. -/
noncomputable def rotationPlane (v1 v2 : Vec n) (theta : ℝ) : Except Err (RotMat n) :=
  if ¬ sqrMag r v1 > 0 then .error .assertion
  else
    let vp := vperp r v1 v2
    if r (sqrMag r vp / sqrMag r v1) < r (r (n * epsilon) * epsilon) then
      (if sqrMag r v2 > 0 then .error .colinear else .error .assertion)
    else
      let magProd := r (Real.sqrt (r (sqrMag r v1 * sqrMag r vp)))
      .ok ⟨Matrix.of fun i j => r ((if i = j then 1 else 0) +
          r (r (r (T.cos theta - 1) * r (r (r (v1.elem i * v1.elem j) / sqrMag r v1) + r (r (vp.elem i * vp.elem j) / sqrMag r vp)))
            - r (r (T.sin theta * r (r (vp.elem i * v1.elem j) - r (v1.elem i * vp.elem j))) / magProd))),
        false, true, 1⟩

/-- quaternion.cpp 266-292 `rotation(from, to)`. For zero vectors line 269 divides by zero, but the result is not used. -/
noncomputable def qRotationFromTo (q : Quat) (from_ to_ : Vec 3) : Except Err Quat :=
  let magProd := r (Real.sqrt (r (sqrMag r from_ * sqrMag r to_)))
  let ctp1 := r (r (dot r from_ to_ / magProd) + 1)
  if magProd < epsilon then .ok { q with valid := false }
  else if ctp1 < epsilon then .error .colinear
  else
    let w := r (Real.sqrt (r (ctp1 / 2)))
    .ok ⟨w, divBy r (cross3 r from_ to_) (r (r (2 * magProd) * w)), from_.valid && to_.valid, 1⟩

/-- rotmatrix_funcs.h 421-481 `rotation(from, to)`; `none`: line 443 takes the square root of a negative number, so that elements become NaN. The special case
439-449 applies in two dimensions. -/
noncomputable def rotationFromTo (from_ to_ : Vec n) : Option (Except Err (RotMat n)) :=
  if ¬ sqrMag r from_ > 0 then some (.error .assertion)
  else if ¬ sqrMag r to_ > 0 then some (.error .assertion)
  else
    let d := dot r from_ to_
    let sqrmagprod := r (sqrMag r from_ * sqrMag r to_)
    let magprod := r (Real.sqrt sqrmagprod)
    let ctp1 := r (r (d / magprod) + 1)
    if ctp1 < epsilon then
      if h : n = 2 then
        let i0 : Fin n := ⟨0, by omega⟩
        let i1 : Fin n := ⟨1, by omega⟩
        if r (2 * ctp1) < 0 then none
        else
          let sinTheta := r (Real.sqrt (r (2 * ctp1)))
          let direction := decide (r (r (to_.elem i0 * from_.elem i1) - r (to_.elem i1 * from_.elem i0)) ≥ 0)
          let e01 := if direction then sinTheta else -sinTheta
          some (.ok ⟨Matrix.of fun i j => if i = j then r (ctp1 - 1) else if i = i0 then e01 else -e01, false, true, 1⟩)
      else some (.error .colinear)
    else
      let combined := fun i j : Fin n =>
        r (r (r (r (r (from_.elem i * from_.elem j) / sqrMag r from_) + r (r (to_.elem i * to_.elem j) / sqrMag r to_))
          - r (r (r (r (from_.elem i * to_.elem j) + r (to_.elem i * from_.elem j)) * d) / sqrmagprod)) / ctp1)
      let diffterm := fun i j : Fin n => r (r (r (to_.elem i * from_.elem j) - r (from_.elem i * to_.elem j)) / magprod)
      some (.ok ⟨Matrix.of fun i j =>
          if i = j then r (1 - combined i i)
          else if i < j then r (-diffterm i j - combined i j)
          else r (diffterm j i - combined j i), false, true, 1⟩)

end WFMath.Fl
