/-
Model of `/repo/src/wfmath/quaternion.h`, `quaternion.cpp`, of the three dimensional part of
`rotmatrix.cpp`, and of the rotation of vectors by quaternions (`vector.cpp`).
-/
import Verif.Model.RotMatrix

namespace WFMath
open Matrix Gauss

/-- quaternion.h 192-195: the fields of `Quaternion`. `vec` carries a validity flag of its own. The
`unsigned` age is a natural number here. -/
@[ext] structure Quat where
  w : ℝ
  vec : Vec 3
  valid : Bool
  age : Nat

namespace Quat

/-- quaternion.h 51 default constructor. -/
def default : Quat := ⟨0, Vec.default, false, 0⟩

/-- quaternion.h 102 `identity()`, 47-48 `Quaternion(Identity)`, quaternion.cpp 64-68 `IDENTITY()`. -/
def identity : Quat := ⟨1, Vec.zero, true, 0⟩

/-- quaternion.cpp 49-62 `Quaternion(w, x, y, z)`. -/
noncomputable def ofComponents (w x y z : ℝ) : Quat :=
  let norm := Real.sqrt (w * w + x * x + y * y + z * z)
  ⟨w / norm, ⟨![x / norm, y / norm, z / norm], true⟩, true, 1⟩

/-- quaternion.cpp 75-105 `isEqualTo`; `none`: the assertion `epsilon > 0` fails. -/
noncomputable def isEqualTo (p q : Quat) (eps : ℝ) : Option Bool :=
  if ¬ eps > 0 then none
  else if !q.valid || !p.valid then some false
  else if |p.w - q.w| ≤ eps ∧
      (List.finRange 3).all (fun i => !decide (|p.vec.elem i - q.vec.elem i| > eps)) = true then some true
  else if |p.w + q.w| ≤ eps then
    some ((List.finRange 3).all fun i => !decide (|p.vec.elem i + q.vec.elem i| > eps))
  else some false

/-- quaternion.cpp 322-332 `normalize`. -/
noncomputable def normalize (q : Quat) : Quat :=
  let norm := (q.w * q.w + q.vec.sqrMag + 1) / 2
  ⟨q.w / norm, q.vec.divBy norm, q.valid, 1⟩

/-- quaternion.h 191 `checkNormalization`. -/
noncomputable def checkNormalization (q : Quat) : Quat :=
  if q.age ≥ maxNormAge ∧ q.valid = true then q.normalize else q

/-- quaternion.cpp 114-116: what `*=` and `/=` do to the left operand before multiplying. -/
noncomputable def prepare (q rhs : Quat) : Quat :=
  checkNormalization ⟨q.w, q.vec, q.valid && rhs.valid, q.age + rhs.age⟩

/-- quaternion.cpp 112-123 `operator*=` for two different objects, `operator*` (quaternion.h 111-115) and
`rotate(q)` (quaternion.h 145). -/
noncomputable def mul (q rhs : Quat) : Quat :=
  let q := prepare q rhs
  ⟨q.w * rhs.w - q.vec.dot rhs.vec,
    rhs.vec.scale q.w + q.vec.scale rhs.w - cross3 q.vec rhs.vec, q.valid, q.age⟩

/-- quaternion.cpp 112-123 `operator*=` when both operands are the same object (`q *= q`,
`q.rotate(q)`): the new validity, age, normalised components and scalar part are seen through `rhs`. -/
noncomputable def mulSelf (q : Quat) : Quat :=
  let q := prepare q q
  let newW := q.w * q.w - q.vec.dot q.vec
  ⟨newW, q.vec.scale q.w + q.vec.scale newW - cross3 q.vec q.vec, q.valid, q.age⟩

/-- quaternion.cpp 125-136 `operator/=` for two different objects, and `operator/`. -/
noncomputable def div (q rhs : Quat) : Quat :=
  let q := prepare q rhs
  ⟨q.w * rhs.w + q.vec.dot rhs.vec,
    q.vec.scale rhs.w - rhs.vec.scale q.w + cross3 q.vec rhs.vec, q.valid, q.age⟩

/-- quaternion.cpp 125-136 `operator/=` when both operands are the same object (`q /= q`). -/
noncomputable def divSelf (q : Quat) : Quat :=
  let q := prepare q q
  let newW := q.w * q.w + q.vec.dot q.vec
  ⟨newW, q.vec.scale newW - q.vec.scale q.w + cross3 q.vec q.vec, q.valid, q.age⟩

/-- quaternion.cpp 189-196 `inverse`. -/
noncomputable def inverse (q : Quat) : Quat := ⟨q.w, -q.vec, q.valid, q.age⟩

/-- quaternion.cpp 150-184: the components computed from a parity-even matrix. -/
noncomputable def fromMatrixComponents (m : Matrix (Fin 3) (Fin 3) ℝ) : ℝ × (Fin 3 → ℝ) :=
  let tr := ∑ i, m i i
  if tr > 0 then
    let s := Real.sqrt (tr + 1)
    let s' := 0.5 / s
    (s / 2, ![(m 2 1 - m 1 2) * s', (m 0 2 - m 2 0) * s', (m 1 0 - m 0 1) * s'])
  else
    let i : Fin 3 := if m 1 1 > m 0 0 then 1 else 0
    let i : Fin 3 := if m 2 2 > m i i then 2 else i
    let j := i + 1
    let k := j + 1
    let s := Real.sqrt (1 + m i i - m j j - m k k)
    let s' := 0.5 / s
    ((m k j - m j k) * s', fun l =>
      if l = i then -(s * 0.5) else if l = j then (m i j + m j i) * s' else (m i k + m k i) * s')

/-- quaternion.cpp 160-176: the assertion `s > 0` made in the branch for non-positive trace. -/
def fromMatrixAssert (m : Matrix (Fin 3) (Fin 3) ℝ) : Prop :=
  let tr := ∑ i, m i i
  let i : Fin 3 := if m 1 1 > m 0 0 then 1 else 0
  let i : Fin 3 := if m 2 2 > m i i then 2 else i
  let j := i + 1
  let k := j + 1
  tr > 0 ∨ Real.sqrt (1 + m i i - m j j - m k k) > 0

/-- quaternion.cpp 138-187 `fromRotMatrix`: the quaternion and the returned flag. The assertion `s > 0`
(line 176) is `fromMatrixAssert`. -/
noncomputable def fromRotMatrix (L : Limits) (m : RotMat 3) : Quat × Bool :=
  let r := if m.flip then RotMat.prod L m (RotMat.mirrorAxis 0) else m
  let c := fromMatrixComponents r.elem
  (⟨c.1, ⟨c.2, m.valid⟩, m.valid, m.age⟩, !m.flip)

/-- quaternion.cpp 198-205 `rotate(m)`. -/
noncomputable def rotateMat (L : Limits) (q : Quat) (m : RotMat 3) : Quat := q.mul (fromRotMatrix L m).1

/-- quaternion.cpp 207-226 `rotation(int axis, angle)`. -/
noncomputable def rotationIdx (q : Quat) (axis : ℤ) (angle : ℝ) : Quat :=
  if axis < 0 ∨ axis > 2 then { q with valid := false }
  else
    ⟨Real.cos (angle / 2), ⟨fun i => if (i.val : ℤ) = axis then Real.sin (angle / 2) else 0, true⟩, true, 1⟩

/-- quaternion.cpp 228-245 `rotation(axis, angle)`. -/
noncomputable def rotationAxis (q : Quat) (axis : Vec 3) (angle : ℝ) : Quat :=
  if axis.mag < epsilon then { q with valid := false }
  else ⟨Real.cos (angle / 2), axis.scale (Real.sin (angle / 2) / axis.mag), axis.valid, 1⟩

/-- quaternion.cpp 247-264 `rotation(axis)`: the angle is the magnitude. -/
noncomputable def rotationMag (q : Quat) (axis : Vec 3) : Quat :=
  if axis.mag < epsilon then { q with valid := false }
  else ⟨Real.cos (axis.mag / 2), axis.scale (Real.sin (axis.mag / 2) / axis.mag), axis.valid, 1⟩

/-- quaternion.cpp 266-292 `rotation(from, to)`. For zero vectors line 269 divides by zero, but the
result is not used. -/
noncomputable def rotationFromTo (q : Quat) (from_ to_ : Vec 3) : Except Err Quat :=
  let magProd := Real.sqrt (from_.sqrMag * to_.sqrMag)
  let ctp1 := from_.dot to_ / magProd + 1
  if magProd < epsilon then .ok { q with valid := false }
  else if ctp1 < epsilon then .error .colinear
  else
    let w := Real.sqrt (ctp1 / 2)
    .ok ⟨w, (cross3 from_ to_).divBy (2 * magProd * w), from_.valid && to_.valid, 1⟩

/-- quaternion.cpp 294-320 `rotation(from, to, fallbackAxis)`. -/
noncomputable def rotationFromToOr (q : Quat) (from_ to_ fallback : Vec 3) : Quat :=
  let magProd := Real.sqrt (from_.sqrMag * to_.sqrMag)
  let ctp1 := from_.dot to_ / magProd + 1
  if magProd < epsilon then { q with valid := false }
  else if ctp1 < epsilon then q.rotationAxis fallback Real.pi
  else
    let w := Real.sqrt (ctp1 / 2)
    ⟨w, (cross3 from_ to_).divBy (2 * magProd * w), from_.valid && to_.valid, 1⟩

end Quat

/-- vector.cpp 93-100 `Vector<3>::rotate(q)`. -/
noncomputable def Vec.rotateQ (v : Vec 3) (q : Quat) : Vec 3 :=
  v.scale (2 * q.w * q.w - 1) + (q.vec.scale 2).scale (q.vec.dot v) + (cross3 q.vec v).scale (2 * q.w)

namespace RotMat

/-- rotmatrix.cpp 42-66: the array computed by `fromQuaternion`. -/
noncomputable def quatArr (q : Quat) : Matrix (Fin 3) (Fin 3) ℝ :=
  let x := q.vec.elem 0
  let y := q.vec.elem 1
  let z := q.vec.elem 2
  let wx := x * q.w
  let wy := y * q.w
  let wz := z * q.w
  !![1 - 2 * (y * y + z * z), 2 * (x * y - wz), 2 * (x * z + wy);
     2 * (x * y + wz), 1 - 2 * (x * x + z * z), 2 * (y * z - wx);
     2 * (x * z - wy), 2 * (y * z + wx), 1 - 2 * (x * x + y * y)]

/-- rotmatrix.cpp 39-74 `fromQuaternion(q, not_flip)` called on the matrix `m` (whose validity flag is
still in place when the product on line 70 is formed). -/
noncomputable def fromQuaternion (L : Limits) (m : RotMat 3) (q : Quat) (notFlip : Bool) : RotMat 3 :=
  let r : RotMat 3 := ⟨quatArr q, !notFlip, m.valid, q.age⟩
  let r := if notFlip then r else prod L r (mirrorAxis 0)
  { r with valid := true }

/-- rotmatrix.cpp 76-96 `rotate(q)`: every row is rotated. -/
noncomputable def rotateQ (L : Limits) (m : RotMat 3) (q : Quat) : RotMat 3 :=
  checkNormalization L ⟨Matrix.of fun i j => ((⟨fun k => m.elem i k, true⟩ : Vec 3).rotateQ q).elem j,
    m.flip, m.valid && q.valid, m.age + q.age⟩

/-- rotmatrix.cpp 102-111: the index of the largest component; `none`: zero vector. -/
noncomputable def mainComp (axis : Vec 3) : Option (Fin 3) :=
  ((List.finRange 3).foldl (fun (s : ℝ × Option (Fin 3)) i =>
    if |axis.elem i| > s.1 then (|axis.elem i|, some i) else s) (0, none)).2

/-- rotmatrix.cpp 115-122: two vectors spanning the plane perpendicular to the axis. The temporary unit
vector has no validity flag set. -/
noncomputable def axisPlane (axis : Vec 3) (mainComp : Fin 3) : Vec 3 × Vec 3 :=
  let newComp : Fin 3 := mainComp - 1
  let tmp : Vec 3 := ⟨fun i => if i = newComp then 1 else 0, false⟩
  let v1 := cross3 axis tmp
  (v1, cross3 axis v1)

/-- rotmatrix.cpp 98-125 `rotation(axis, theta)`. -/
noncomputable def rotationAxis (axis : Vec 3) (theta : ℝ) : Except Err (RotMat 3) :=
  match mainComp axis with
  | none => .error .assertion
  | some c => rotationPlane (axisPlane axis c).1 (axisPlane axis c).2 theta

/-- rotmatrix.cpp 127-158 `rotation(axis)`. -/
noncomputable def rotationMag (axis : Vec 3) : Except Err (RotMat 3) :=
  if axis.mag = 0 then .ok identity
  else match mainComp axis with
    | none => .error .assertion
    | some c => rotationPlane (axisPlane axis c).1 (axisPlane axis c).2 axis.mag

end RotMat
end WFMath
