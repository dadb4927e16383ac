/-
Model of `/repo/src/wfmath/vector.h`, `vector_funcs.h`, `vector.cpp`, `zero.h`, `basis.h`
(without the rotations by matrices and quaternions, see `Model/RotMatrix.lean`, `Model/Quaternion.lean`).

A division by zero gives an infinity or NaN in C++ and a meaningless real number here; theorems about
functions that divide carry a hypothesis that excludes it.
-/
import Verif.Model.Const
import Mathlib.Analysis.Real.Sqrt
import Mathlib.Analysis.SpecialFunctions.Trigonometric.Inverse
import Mathlib.Analysis.SpecialFunctions.Complex.Arg
import Mathlib.Data.Fin.VecNotation

namespace WFMath

/-- vector.h 120-354 `class Vector<dim>`: the array and the validity flag. -/
@[ext] structure Vec (n : Nat) where
  elem : Fin n → ℝ
  valid : Bool

namespace Vec
variable {n : Nat}

/-- vector.h 125 default constructor: zero components, invalid. -/
def default : Vec n := ⟨fun _ => 0, false⟩

/-- vector_funcs.h 145-155 `zero()`, and `ZERO()` (51-56, zero.h 33-63). -/
def zero : Vec n := ⟨fun _ => 0, true⟩

/-- vector_funcs.h 58-74 `isEqualTo`. -/
noncomputable def isEqualTo (u v : Vec n) (eps : ℝ) : Bool :=
  if !v.valid || !u.valid then false
  else
    let delta := scaleEpsilonArr u.elem v.elem eps
    (List.finRange n).all fun i => !decide (|u.elem i - v.elem i| > delta)

/-- vector_funcs.h 76-86 `operator+=` (and `operator+`, vector.h 399-407). -/
noncomputable instance : Add (Vec n) := ⟨fun u v => ⟨fun i => u.elem i + v.elem i, u.valid && v.valid⟩⟩
/-- vector_funcs.h 88-98 `operator-=` (and `operator-`, vector.h 409-417). -/
noncomputable instance : Sub (Vec n) := ⟨fun u v => ⟨fun i => u.elem i - v.elem i, u.valid && v.valid⟩⟩
/-- vector_funcs.h 121-133 unary minus. -/
noncomputable instance : Neg (Vec n) := ⟨fun v => ⟨fun i => -v.elem i, v.valid⟩⟩
/-- vector_funcs.h 100-108 `operator*=` (and both `operator*`, vector.h 419-437). -/
noncomputable def scale (v : Vec n) (d : ℝ) : Vec n := ⟨fun i => v.elem i * d, v.valid⟩
/-- vector_funcs.h 110-118 `operator/=` (and `operator/`, vector.h 439-447). -/
noncomputable def divBy (v : Vec n) (d : ℝ) : Vec n := ⟨fun i => v.elem i / d, v.valid⟩

/-- vector_funcs.h 203-215 `Dot`. -/
noncomputable def dot (u v : Vec n) : ℝ :=
  let delta := scaleEpsilonArr u.elem v.elem epsilon
  let ans := ∑ i, u.elem i * v.elem i
  if |ans| ≥ delta then ans else 0

/-- vector_funcs.h 217-228 `sqrMag`. -/
noncomputable def sqrMag (v : Vec n) : ℝ := ∑ i, v.elem i * v.elem i

/-- vector.h 217 `mag`. -/
noncomputable def mag (v : Vec n) : ℝ := Real.sqrt v.sqrMag

/-- vector.h 219-220 `normalize`. -/
noncomputable def normalize (v : Vec n) (norm : ℝ) : Vec n := v.scale (norm / v.mag)

/-- vector_funcs.h 157-169 `Angle(v, u)`. -/
noncomputable def angle (v u : Vec n) : ℝ :=
  Real.arccos (floatClamp (dot u v / Real.sqrt (u.sqrMag * v.sqrMag)) (-1) 1)

/-- vector_funcs.h 171-184 `rotate(axis1, axis2, theta)`. Axes in range by type; `none` is the failed
assertion that they differ. -/
noncomputable def rotate (v : Vec n) (axis1 axis2 : Fin n) (theta : ℝ) : Option (Vec n) :=
  if axis1 = axis2 then none
  else
    let t1 := v.elem axis1
    let t2 := v.elem axis2
    let e := Function.update v.elem axis1 (t1 * Real.cos theta - t2 * Real.sin theta)
    some ⟨Function.update e axis2 (t2 * Real.cos theta + t1 * Real.sin theta), v.valid⟩

/-- vector_funcs.h 230-251 `Perpendicular`. -/
noncomputable def perpendicular (u v : Vec n) : Bool :=
  decide (|dot u v| < ldexp epsilon (frexpExp (maxAbs u.elem) + frexpExp (maxAbs v.elem)))

/-- vector.h 449-459 `Parallel(v1, v2, same_dir)`: the result and the new value of `same_dir`.
-/
noncomputable def parallel (u v : Vec n) : Bool × Bool :=
  let d := dot u v
  (equal (d * d) (u.sqrMag * v.sqrMag) epsilon, decide (d > 0))

/-- vector.h 271 `mirror(i)`. -/
noncomputable def mirrorAxis (v : Vec n) (i : Fin n) : Vec n :=
  ⟨Function.update v.elem i (v.elem i * -1), v.valid⟩
/-- vector.h 273-274 `mirror(v)`: reflect `w` in the direction of `v`. -/
noncomputable def mirrorDir (w v : Vec n) : Vec n := w - ((v.scale 2).scale (dot v w)).divBy v.sqrMag
/-- vector.h 279 `mirror()`. -/
noncomputable def mirrorAll (v : Vec n) : Vec n := v.scale (-1)

/-- vector_funcs.h 281-284 `Vector<1>::sloppyMag`. -/
noncomputable def sloppyMag1 (v : Vec 1) : ℝ := |v.elem 0|

/-- vector.cpp 42-56 `Vector<2>::sloppyMag`. `sqrt2()` is modelled as the exact square root (the
literal is correct to the precision of a double). -/
noncomputable def sloppyMag2 (v : Vec 2) : ℝ :=
  let ax := |v.elem 0|
  let ay := |v.elem 1|
  let p := Real.sqrt 2 - 1
  if ax > ay then ax + p * ay else if ay > 0 then ay + p * ax else 0

/-- vector.cpp 58-77 `Vector<3>::sloppyMag`. -/
noncomputable def sloppyMag3 (v : Vec 3) : ℝ :=
  let ax := |v.elem 0|
  let ay := |v.elem 1|
  let az := |v.elem 2|
  let p := Real.sqrt 2 - 1
  let q := Real.sqrt 3 + 1 - 2 * Real.sqrt 2
  if ax > ay ∧ ax > az then ax + p * (ay + az) + q * ay * az / ax
  else if ay > az then ay + p * (ax + az) + q * ax * az / ay
  else if az > 0 then az + p * (ax + ay) + q * ax * ay / az
  else 0

/-- vector.h 470-503 `sloppyMagMax()`: 1, `1.0823922f`, `1.1459347f`. A `float` literal denotes the
nearest binary32 number, given here as an exact fraction with denominator `2^23`. -/
noncomputable def sloppyMagMax : Nat → ℝ
  | 1 => 1
  | 2 => 9079764 / 8388608
  | _ => 9612797 / 8388608

/-- vector_funcs.h 135-143 `sloppyNorm`, given the value of `sloppyMag()`. `maxDouble` is
`numeric_limits<double>::max()`. -/
noncomputable def sloppyNorm (v : Vec n) (sloppyMag : ℝ) (norm maxDouble : ℝ) : Option (Vec n) :=
  if sloppyMag > norm / maxDouble then some (v.scale (norm / sloppyMag)) else none

end Vec

/-- vector.cpp 102-107 `Cross(Vector<2>, Vector<2>)`. -/
noncomputable def cross2 (u v : Vec 2) : ℝ :=
  let ans := u.elem 0 * v.elem 1 - v.elem 0 * u.elem 1
  if ans ≥ scaleEpsilonArr u.elem v.elem epsilon then ans else 0

/-- vector.cpp 109-126 `Cross(Vector<3>, Vector<3>)`. -/
noncomputable def cross3 (u v : Vec 3) : Vec 3 :=
  let a0 := u.elem 1 * v.elem 2 - v.elem 1 * u.elem 2
  let a1 := u.elem 2 * v.elem 0 - v.elem 2 * u.elem 0
  let a2 := u.elem 0 * v.elem 1 - v.elem 0 * u.elem 1
  let delta := scaleEpsilonArr u.elem v.elem epsilon
  let cut := fun a : ℝ => if |a| < delta then 0 else a
  ⟨![cut a0, cut a1, cut a2], u.valid && v.valid⟩

/-- vector.cpp 79-91 `Vector<3>::rotate(axis, theta)`; `none`: failed assertion (zero axis). -/
noncomputable def Vec.rotateAxis (v axis : Vec 3) (theta : ℝ) : Option (Vec 3) :=
  let sq := axis.sqrMag
  if sq = 0 then none
  else
    let perp := v - (axis.scale (v.dot axis)).divBy sq
    let rot90 := (cross3 axis perp).divBy (Real.sqrt sq)
    some (v + (perp.scale (Real.cos theta - 1) + rot90.scale (Real.sin theta)))

/-- vector_funcs.h 289-297 `rotateX/Y/Z` and `Vector<2>::rotate(theta)`. -/
noncomputable def Vec.rotateX (v : Vec 3) (theta : ℝ) : Option (Vec 3) := v.rotate 1 2 theta
noncomputable def Vec.rotateY (v : Vec 3) (theta : ℝ) : Option (Vec 3) := v.rotate 2 0 theta
noncomputable def Vec.rotateZ (v : Vec 3) (theta : ℝ) : Option (Vec 3) := v.rotate 0 1 theta
noncomputable def Vec.rotate2D (v : Vec 2) (theta : ℝ) : Option (Vec 2) := v.rotate 0 1 theta

/-- `std::atan2(y, x)`. -/
noncomputable def atan2 (y x : ℝ) : ℝ := Complex.arg ⟨x, y⟩

/-- basis.h 40-44 `_CartToPolar`. -/
noncomputable def cartToPolar (x y : ℝ) : ℝ × ℝ := (Real.sqrt (x * x + y * y), atan2 x y)
/-- basis.h 46-50 `_PolarToCart`. -/
noncomputable def polarToCart (r theta : ℝ) : ℝ × ℝ := (r * Real.cos theta, r * Real.sin theta)
/-- basis.h 52-61 `_CartToSpherical`: `(r, theta, phi)`. -/
noncomputable def cartToSpherical (x y z : ℝ) : ℝ × ℝ × ℝ :=
  (Real.sqrt (x * x + y * y + z * z), atan2 z (Real.sqrt (x * x + y * y)), atan2 x y)
/-- basis.h 62-69 `_SphericalToCart`. -/
noncomputable def sphericalToCart (r theta phi : ℝ) : ℝ × ℝ × ℝ :=
  (r * Real.sin theta * Real.cos phi, r * Real.sin theta * Real.sin phi, r * Real.cos theta)

/-- vector.cpp 128-135 `Vector<2>::polar`. -/
noncomputable def Vec.polar2 (r theta : ℝ) : Vec 2 :=
  ⟨![(polarToCart r theta).1, (polarToCart r theta).2], true⟩
/-- vector.cpp 137-144 `Vector<2>::asPolar`. -/
noncomputable def Vec.asPolar2 (v : Vec 2) : ℝ × ℝ := cartToPolar (v.elem 0) (v.elem 1)
/-- vector.cpp 146-154 `Vector<3>::polar`. -/
noncomputable def Vec.polar3 (r theta z : ℝ) : Vec 3 :=
  ⟨![(polarToCart r theta).1, (polarToCart r theta).2, z], true⟩
/-- vector.cpp 156-164 `Vector<3>::asPolar`. -/
noncomputable def Vec.asPolar3 (v : Vec 3) : ℝ × ℝ × ℝ :=
  ((cartToPolar (v.elem 0) (v.elem 1)).1, (cartToPolar (v.elem 0) (v.elem 1)).2, v.elem 2)
/-- vector.cpp 166-173 `Vector<3>::spherical`. -/
noncomputable def Vec.spherical (r theta phi : ℝ) : Vec 3 :=
  let c := sphericalToCart r theta phi
  ⟨![c.1, c.2.1, c.2.2], true⟩
/-- vector.cpp 175-184 `Vector<3>::asSpherical`. -/
noncomputable def Vec.asSpherical (v : Vec 3) : ℝ × ℝ × ℝ :=
  cartToSpherical (v.elem 0) (v.elem 1) (v.elem 2)

end WFMath
