/-
Functions of `/repo/src/wfmath` once more, with every arithmetic operation rounded to a `double` (53 digits), in the order the C++ text gives.

`r` is any rounding to nearest. A function here takes the place of the function of the same name outside the namespace `Fl`, where arithmetic is exact.
Comparisons, `fabs`, `frexp`, `ldexp`, unary minus and copying are exact in C++ and appear without `r`. Simplifications: the exponent range is unbounded (no
overflow, no underflow), there are no infinities and no NaN, every operation is rounded once and to 53 digits (no fused multiply-add, no wider registers).
-/
import Verif.Model.Intersect
import Verif.Model.MTRand
import Verif.Model.Quaternion
import Verif.Spec.Float

namespace WFMath.Fl
open Spec
variable (r : Rounding 53) {n : Nat}

/-! ### Comparison -/

/-- const.cpp 55-61 `Equal(double, double, double)`. -/
noncomputable def equal (x1 x2 eps : ℝ) : Bool := decide (|r (x1 - x2)| ≤ scaleEpsilon x1 x2 eps)
/-- vector_funcs.h 58-74, point_funcs.h 67-83: the loop over the components in `isEqualTo` of vectors and points. -/
noncomputable def arrEqual (x y : Fin n → ℝ) (eps : ℝ) : Bool :=
  let delta := scaleEpsilonArr x y eps
  (List.finRange n).all fun i => !decide (|r (x i - y i)| > delta)
/-- vector_funcs.h 58-74 `isEqualTo`. -/
noncomputable def vecEqual (u v : Vec n) (eps : ℝ) : Bool := if !v.valid || !u.valid then false else arrEqual r u.elem v.elem eps
/-- point_funcs.h 67-83 `isEqualTo`. -/
noncomputable def ptEqual (p q : Pt n) (eps : ℝ) : Bool := if !q.valid || !p.valid then false else arrEqual r p.elem q.elem eps

/-- intersect_decls.h 35-38 `_Less`. -/
noncomputable def less (x1 x2 : ℝ) (proper : Bool) : Bool := if proper then decide (x1 ≤ x2) else decide (r (x2 - x1) > epsilon)
/-- intersect_decls.h 45-48 `_Greater`. `_LessEq` and `_GreaterEq` (40-43, 50-53) do no arithmetic: `WFMath.lessEq`, `WFMath.greaterEq`. -/
noncomputable def greater (x1 x2 : ℝ) (proper : Bool) : Bool := if proper then decide (x1 ≥ x2) else decide (r (x1 - x2) > epsilon)

/-- intersect.h 72-80 `Intersect(AxisBox, Point)`. -/
noncomputable def interBP (b : Box n) (p : Pt n) (proper : Bool) : Bool :=
  (List.finRange n).all fun i => !(greater r (b.low.elem i) (p.elem i) proper || less r (b.high.elem i) (p.elem i) proper)
/-- intersect.h 88-97 `Intersect(AxisBox, AxisBox)`. -/
noncomputable def interBB (b1 b2 : Box n) (proper : Bool) : Bool :=
  (List.finRange n).all fun i =>
    !(greater r (b1.low.elem i) (b2.high.elem i) proper || less r (b1.high.elem i) (b2.low.elem i) proper)
/-- intersect.h 99-108 `Contains(AxisBox, AxisBox)`. -/
noncomputable def containsBB (outer inner : Box n) (proper : Bool) : Bool :=
  (List.finRange n).all fun i =>
    !(less r (inner.low.elem i) (outer.low.elem i) proper || greater r (inner.high.elem i) (outer.high.elem i) proper)

/-! ### Random numbers -/

/-- MersenneTwister.h 83-88 `rand<double>()` and `rand()` on a generator word. The conversion of the word to `double` is exact; the quotient `1.0/4294967295.0` is
computed, and rounded, once. -/
noncomputable def rand (w : BitVec 32) : ℝ := r ((w.toNat : ℝ) * r (1 / 4294967295))
/-- MersenneTwister.h 90-91 `rand(n)`. -/
noncomputable def randMax (w : BitVec 32) (m : ℝ) : ℝ := r (rand r w * m)
/-- MersenneTwister.h 79-81 `rand<float>()`, with a rounding `s` to the 24 digits of a `float`: the conversion of the word, the literal, the quotient and the
product are all rounded. -/
noncomputable def randFloat (s : Rounding 24) (w : BitVec 32) : ℝ := s (s (w.toNat : ℝ) * s (1 / s 4294967295))

/-! ### Vectors and points -/

/-- `ans = 0; for(i) ans += f(i)`. -/
noncomputable def sum (f : Fin n → ℝ) : ℝ := (List.finRange n).foldl (fun s i => r (s + f i)) 0

/-- vector_funcs.h 76-86 `operator+=`. -/
noncomputable def add (u v : Vec n) : Vec n := ⟨fun i => r (u.elem i + v.elem i), u.valid && v.valid⟩
/-- vector_funcs.h 88-98 `operator-=`. -/
noncomputable def sub (u v : Vec n) : Vec n := ⟨fun i => r (u.elem i - v.elem i), u.valid && v.valid⟩
/-- vector_funcs.h 100-108 `operator*=`. -/
noncomputable def scale (v : Vec n) (d : ℝ) : Vec n := ⟨fun i => r (v.elem i * d), v.valid⟩
/-- vector_funcs.h 110-118 `operator/=`. -/
noncomputable def divBy (v : Vec n) (d : ℝ) : Vec n := ⟨fun i => r (v.elem i / d), v.valid⟩
/-- vector_funcs.h 203-215 `Dot`. -/
noncomputable def dot (u v : Vec n) : ℝ :=
  let delta := scaleEpsilonArr u.elem v.elem epsilon
  let ans := sum r fun i => r (u.elem i * v.elem i)
  if |ans| ≥ delta then ans else 0
/-- vector_funcs.h 217-228 `sqrMag`. -/
noncomputable def sqrMag (v : Vec n) : ℝ := sum r fun i => r (v.elem i * v.elem i)
/-- vector.h 217 `mag`; the square root is correctly rounded (IEEE 754). -/
noncomputable def mag (v : Vec n) : ℝ := r (Real.sqrt (sqrMag r v))
/-- vector.h 219-220 `normalize`. -/
noncomputable def normalize (v : Vec n) (norm : ℝ) : Vec n := scale r v (r (norm / mag r v))
/-- vector.cpp 102-107 `Cross(Vector<2>, Vector<2>)`. -/
noncomputable def cross2 (u v : Vec 2) : ℝ :=
  let ans := r (r (u.elem 0 * v.elem 1) - r (v.elem 0 * u.elem 1))
  if ans ≥ scaleEpsilonArr u.elem v.elem epsilon then ans else 0
/-- vector.cpp 109-126 `Cross(Vector<3>, Vector<3>)`. -/
noncomputable def cross3 (u v : Vec 3) : Vec 3 :=
  let a0 := r (r (u.elem 1 * v.elem 2) - r (v.elem 1 * u.elem 2))
  let a1 := r (r (u.elem 2 * v.elem 0) - r (v.elem 2 * u.elem 0))
  let a2 := r (r (u.elem 0 * v.elem 1) - r (v.elem 0 * u.elem 1))
  let delta := scaleEpsilonArr u.elem v.elem epsilon
  let cut := fun a : ℝ => if |a| < delta then 0 else a
  ⟨![cut a0, cut a1, cut a2], u.valid && v.valid⟩

/-- point_funcs.h 85-97 `operator-(Point, Point)`. -/
noncomputable def ptSub (p q : Pt n) : Vec n := ⟨fun i => r (p.elem i - q.elem i), p.valid && q.valid⟩
/-- point_funcs.h 99-109 `operator+=`. -/
noncomputable def addVec (p : Pt n) (v : Vec n) : Pt n := ⟨fun i => r (p.elem i + v.elem i), p.valid && v.valid⟩
/-- point_funcs.h 111-121 `operator-=`. -/
noncomputable def subVec (p : Pt n) (v : Vec n) : Pt n := ⟨fun i => r (p.elem i - v.elem i), p.valid && v.valid⟩
/-- point_funcs.h 123-134 `SquaredDistance`. -/
noncomputable def sqDist (p q : Pt n) : ℝ :=
  let ans := sum r fun i => r (r (p.elem i - q.elem i) * r (p.elem i - q.elem i))
  if |ans| ≥ scaleEpsilonArr p.elem q.elem epsilon then ans else 0
/-- point.h 54-56 `Distance`. -/
noncomputable def dist (p q : Pt n) : ℝ := r (Real.sqrt (sqDist r p q))
/-- point_funcs.h 218-231 `Midpoint`. -/
noncomputable def midpoint (p q : Pt n) (d : ℝ) : Pt n :=
  ⟨fun i => r (r (p.elem i * r (1 - d)) + r (q.elem i * d)), p.valid && q.valid⟩

/-! ### Boxes and balls -/

/-- axisbox.h 95 `getCenter`. -/
noncomputable def boxCenter (b : Box n) : Pt n := midpoint r b.low b.high (1 / 2)
/-- axisbox.h 120-121 `shift`. -/
noncomputable def boxShift (b : Box n) (v : Vec n) : Box n := ⟨addVec r b.low v, addVec r b.high v⟩

/-- The right hand side of intersect.h 115-116 and 155: `radius * radius * (1 + epsilon)`. -/
noncomputable def radiusBound (R : ℝ) : ℝ := r (r (R * R) * r (1 + epsilon))
/-- intersect.h 112-117 `Intersect(Ball, Point)`. -/
noncomputable def interBallP (b : Ball n) (p : Pt n) (proper : Bool) : Bool :=
  lessEq (sqDist r b.center p) (radiusBound r b.radius) proper
/-- intersect.h 129-139: the contribution of one axis to the squared distance; the `continue` adds nothing, which is the same as adding 0. -/
noncomputable def axisDistSq (c lo hi : ℝ) : ℝ :=
  if c < lo then r (r (c - lo) * r (c - lo)) else if c > hi then r (r (c - hi) * r (c - hi)) else 0
/-- intersect.h 125-142 `Intersect(Ball, AxisBox)`. -/
noncomputable def interBallB (b : Ball n) (a : Box n) (proper : Bool) : Bool :=
  lessEq (sum r fun i => axisDistSq r (b.center.elem i) (a.low.elem i) (a.high.elem i)) (r (b.radius * b.radius)) proper
/-- intersect.h 144-156 `Contains(Ball, AxisBox)`. -/
noncomputable def containsBallB (b : Ball n) (a : Box n) (proper : Bool) : Bool :=
  lessEq (sum r fun i =>
      let furthest := floatMax |r (b.center.elem i - a.low.elem i)| |r (b.center.elem i - a.high.elem i)|
      r (furthest * furthest))
    (radiusBound r b.radius) proper
/-- intersect.h 158-167 `Contains(AxisBox, Ball)`. -/
noncomputable def containsBBall (a : Box n) (b : Ball n) (proper : Bool) : Bool :=
  (List.finRange n).all fun i =>
    !(less r (r (b.center.elem i - b.radius)) (a.low.elem i) proper || greater r (r (b.center.elem i + b.radius)) (a.high.elem i) proper)
/-- intersect.h 169-176 `Intersect(Ball, Ball)`. -/
noncomputable def interBallBall (b1 b2 : Ball n) (proper : Bool) : Bool :=
  let radSum := r (b1.radius + b2.radius)
  lessEq (sqDist r b1.center b2.center) (r (radSum * radSum)) proper
/-- intersect.h 178-189 `Contains(Ball, Ball)`. -/
noncomputable def containsBallBall (outer inner : Ball n) (proper : Bool) : Bool :=
  let d := r (outer.radius - inner.radius)
  if less r d 0 proper then false else lessEq (sqDist r outer.center inner.center) (r (d * d)) proper

/-! ### Bounding boxes and spheres -/

/-- ball_funcs.h 38-54 `Ball::boundingBox`. -/
noncomputable def ballBox (b : Ball n) : Box n :=
  ⟨⟨fun i => r (b.center.elem i - b.radius), b.center.valid⟩, ⟨fun i => r (b.center.elem i + b.radius), b.center.valid⟩⟩
/-- axisbox_funcs.h 116-120 `AxisBox::boundingSphere`. -/
noncomputable def boxSphere (b : Box n) : Ball n := Ball.mk' (boxCenter r b) (r (dist r b.low b.high / 2))
/-- segment.h 102-103 `Segment::boundingSphere`, with `getCenter` (segment.h 73). -/
noncomputable def segSphere (s : Seg n) : Ball n := Ball.mk' (midpoint r s.p1 s.p2 (1 / 2)) (r (dist r s.p1 s.p2 / 2))

/-! ### Quaternions -/

/-- quaternion.cpp 49-62 `Quaternion(w, x, y, z)`. -/
noncomputable def qOfComponents (w x y z : ℝ) : Quat :=
  let norm := r (Real.sqrt (r (r (r (r (w * w) + r (x * x)) + r (y * y)) + r (z * z))))
  ⟨r (w / norm), ⟨![r (x / norm), r (y / norm), r (z / norm)], true⟩, true, 1⟩
/-- quaternion.cpp 322-332 `normalize`. -/
noncomputable def qNormalize (q : Quat) : Quat :=
  let norm := r (r (r (r (q.w * q.w) + sqrMag r q.vec) + 1) / 2)
  ⟨r (q.w / norm), divBy r q.vec norm, q.valid, 1⟩
/-- quaternion.cpp 114-116 and quaternion.h 191 `checkNormalization`: what `*=` and `/=` do to the left operand before multiplying. -/
noncomputable def qPrepare (q rhs : Quat) : Quat :=
  if q.age + rhs.age ≥ maxNormAge ∧ (q.valid && rhs.valid) = true then qNormalize r ⟨q.w, q.vec, q.valid && rhs.valid, q.age + rhs.age⟩
  else ⟨q.w, q.vec, q.valid && rhs.valid, q.age + rhs.age⟩
/-- quaternion.cpp 112-123 `operator*=` for two different objects, `operator*` (quaternion.h 111-115) and `rotate(q)` (quaternion.h 145). -/
noncomputable def qMul (q rhs : Quat) : Quat :=
  let q := qPrepare r q rhs
  ⟨r (r (q.w * rhs.w) - dot r q.vec rhs.vec), sub r (add r (scale r rhs.vec q.w) (scale r q.vec rhs.w)) (cross3 r q.vec rhs.vec), q.valid, q.age⟩
/-- quaternion.cpp 125-136 `operator/=` for two different objects, and `operator/`. -/
noncomputable def qDiv (q rhs : Quat) : Quat :=
  let q := qPrepare r q rhs
  ⟨r (r (q.w * rhs.w) + dot r q.vec rhs.vec), add r (sub r (scale r q.vec rhs.w) (scale r rhs.vec q.w)) (cross3 r q.vec rhs.vec), q.valid, q.age⟩
/-- vector.cpp 93-100 `Vector<3>::rotate(q)`. -/
noncomputable def rotateQ (v : Vec 3) (q : Quat) : Vec 3 :=
  add r (add r (scale r v (r (r (r (2 * q.w) * q.w) - 1))) (scale r (scale r q.vec 2) (dot r q.vec v))) (scale r (cross3 r q.vec v) (r (2 * q.w)))

/-! ### Matrices and coordinates -/

/-- rotmatrix_funcs.h 159-174 `Prod(m, v)`, `operator*(m, v)` 211-215. -/
noncomputable def matVec (m : RotMat n) (v : Vec n) : Vec n := ⟨fun i => sum r fun j => r (m.elem i j * v.elem j), m.valid && v.valid⟩
/-- rotmatrix_funcs.h 176-191 `InvProd(m, v)`, which is also `v * m` (193-197, 217-221) and `v.rotate(m)` (vector.h 238). -/
noncomputable def vecMat (m : RotMat n) (v : Vec n) : Vec n := ⟨fun i => sum r fun j => r (m.elem j i * v.elem j), m.valid && v.valid⟩
/-- rotmatrix_funcs.h 71-91 `Prod(m1, m2)` up to the call of `checkNormalization`, which does nothing while the age is below 20 (all of it: `Model/RoundedGauss.lean`). -/
noncomputable def prod (a b : RotMat n) : RotMat n :=
  ⟨Matrix.of fun i j => sum r fun k => r (a.elem i k * b.elem k j), a.flip != b.flip, a.valid && b.valid, a.age + b.age⟩
/-- rotmatrix_funcs.h 93-113 `ProdInv(m1, m2)`, in the same way. -/
noncomputable def prodInv (a b : RotMat n) : RotMat n :=
  ⟨Matrix.of fun i j => sum r fun k => r (a.elem i k * b.elem j k), a.flip != b.flip, a.valid && b.valid, a.age + b.age⟩
/-- rotmatrix_funcs.h 115-135 `InvProd(m1, m2)`, in the same way. -/
noncomputable def invProd (a b : RotMat n) : RotMat n :=
  ⟨Matrix.of fun i j => sum r fun k => r (a.elem k i * b.elem k j), a.flip != b.flip, a.valid && b.valid, a.age + b.age⟩
/-- rotmatrix_funcs.h 137-157 `InvProdInv(m1, m2)`, in the same way. -/
noncomputable def invProdInv (a b : RotMat n) : RotMat n :=
  ⟨Matrix.of fun i j => sum r fun k => r (a.elem k i * b.elem j k), a.flip != b.flip, a.valid && b.valid, a.age + b.age⟩

/-- point.h 146-147 `rotate(m, p)`. -/
noncomputable def ptRotate (x : Pt n) (m : RotMat n) (p : Pt n) : Pt n := addVec r p (vecMat r m (ptSub r x p))
/-- point.h 178-180 `toParentCoords(origin, rotation)`. -/
noncomputable def toParent (x o : Pt n) (m : RotMat n) : Pt n := addVec r o (vecMat r m (ptSub r x Pt.origin))
/-- point.h 188-190 `toLocalCoords(origin, rotation)`. -/
noncomputable def toLocal (x o : Pt n) (m : RotMat n) : Pt n := addVec r Pt.origin (matVec r m (ptSub r x o))
/-- point.cpp 99-109 `rotate(q, p)`. -/
noncomputable def ptRotateQ (x : Pt 3) (q : Quat) (p : Pt 3) : Pt 3 := addVec r p (rotateQ r (ptSub r x p) q)
/-- point.cpp 118-123 `toParentCoords(origin, q)`. -/
noncomputable def toParentQ (x o : Pt 3) (q : Quat) : Pt 3 := addVec r o (rotateQ r (ptSub r x Pt.origin) q)
/-- point.cpp 111-116 `toLocalCoords(origin, q)`. -/
noncomputable def toLocalQ (x o : Pt 3) (q : Quat) : Pt 3 := addVec r Pt.origin (rotateQ r (ptSub r x o) q.inverse)

/-! ### Barycenters -/

/-- point_funcs.h 202-208: the loop of `Barycenter`, as `Pt.bLoop`. -/
noncomputable def bLoop : ℝ × Bool × (Fin n → ℝ) → List (Pt n) → ℝ × Bool × (Fin n → ℝ)
  | s, [] => s
  | (num, ok, out), p :: ps => bLoop (r (num + 1), ok && p.valid, fun j => r (out j + p.elem j)) ps
/-- point_funcs.h 185-216 `Barycenter(points)`. -/
noncomputable def barycenter : List (Pt n) → Pt n
  | [] => Pt.default
  | p :: ps =>
    let (num, ok, out) := bLoop r (1, p.valid, p.elem) ps
    ⟨fun j => r (out j / num), ok⟩
/-- point_funcs.h 157-170: the loop of the weighted `Barycenter`, as `Pt.wLoop`. -/
noncomputable def wLoop : ℝ × ℝ × Bool × (Fin n → ℝ) → List (Pt n) → List ℝ → ℝ × ℝ × Bool × (Fin n → ℝ)
  | (tot, mx, ok, out), p :: ps, w :: ws =>
    wLoop (r (tot + w), if |w| > mx then |w| else mx, ok && p.valid, fun j => r (out j + r (p.elem j * w))) ps ws
  | s, _, _ => s
/-- point_funcs.h 136-183 `Barycenter(points, weights)`. -/
noncomputable def barycenterW : List (Pt n) → List ℝ → Pt n
  | p :: ps, w :: ws =>
    let (tot, mx, ok, out) := wLoop r (w, |w|, p.valid, fun j => r (p.elem j * w)) ps ws
    if mx ≤ 0 ∨ |tot| ≤ r (mx * epsilon) then ⟨out, false⟩
    else ⟨fun j => r (out j / tot), ok⟩
  | _, _ => Pt.default

end WFMath.Fl
