/-
Model of `/repo/src/wfmath/rotmatrix.h`, `rotmatrix_funcs.h` and the matrix/array part of `rotmatrix.cpp`.
-/
import Verif.Model.Vector
import Verif.Model.Gauss

namespace WFMath
open Matrix Gauss

/-- How a call can end without a result. -/
inductive Err where
  | assertion
  | colinear
  deriving DecidableEq, Repr

/-- rotmatrix.h 251-255: the fields of `RotMatrix<dim>`. The `unsigned` age is a natural number here. -/
@[ext] structure RotMat (n : Nat) where
  elem : Matrix (Fin n) (Fin n) ℝ
  flip : Bool
  valid : Bool
  age : Nat

/-- const.h 137 `WFMATH_MAX_NORM_AGE`. -/
def maxNormAge : Nat := (30 * 2) / 3

namespace RotMat
variable {n : Nat}

/-- rotmatrix.h 90 default constructor. -/
def default : RotMat n := ⟨0, false, false, 0⟩

/-- rotmatrix_funcs.h 537-552: the inverse computed inside `normalize()`; `none`: failed assertion. -/
noncomputable def normalizeBuf (L : Limits) (m : RotMat n) : Option (Matrix (Fin n) (Fin n) ℝ) :=
  inverseImpl L (Matrix.of fun i j => m.elem j i) identityArr

/-- rotmatrix_funcs.h 537-567 `normalize`. When the inversion fails, the build with assertions aborts
(`normalizeBuf = none`); the other build returns the matrix unchanged, which is what is modelled. -/
noncomputable def normalize (L : Limits) (m : RotMat n) : RotMat n :=
  match normalizeBuf L m with
  | none => m
  | some buf2 => ⟨Matrix.of fun i j => (m.elem i j + buf2 i j) / 2, m.flip, m.valid, 1⟩

/-- rotmatrix.h 259 `checkNormalization`. -/
noncomputable def checkNormalization (L : Limits) (m : RotMat n) : RotMat n :=
  if m.age ≥ maxNormAge ∧ m.valid = true then m.normalize L else m

/-- rotmatrix_funcs.h 41-69 `isEqualTo`; `none`: a failed assertion. -/
noncomputable def isEqualTo (a b : RotMat n) (eps : ℝ) : Option Bool :=
  if ¬ eps > 0 then none
  else if !b.valid || !a.valid then some false
  else if (List.finRange n).all fun i => (List.finRange n).all fun j =>
      !decide (|a.elem i j - b.elem i j| > eps) then
    (if a.flip = b.flip then some true else none)
  else some false

/-- rotmatrix_funcs.h 71-91 `Prod(m1, m2)`, also `operator*` (205-209) and `rotate(m)` (rotmatrix.h 196). -/
noncomputable def prod (L : Limits) (a b : RotMat n) : RotMat n :=
  checkNormalization L ⟨Matrix.of fun i j => ∑ k, a.elem i k * b.elem k j, a.flip != b.flip,
    a.valid && b.valid, a.age + b.age⟩

/-- rotmatrix_funcs.h 93-113 `ProdInv(m1, m2)`. -/
noncomputable def prodInv (L : Limits) (a b : RotMat n) : RotMat n :=
  checkNormalization L ⟨Matrix.of fun i j => ∑ k, a.elem i k * b.elem j k, a.flip != b.flip,
    a.valid && b.valid, a.age + b.age⟩

/-- rotmatrix_funcs.h 115-135 `InvProd(m1, m2)`. -/
noncomputable def invProd (L : Limits) (a b : RotMat n) : RotMat n :=
  checkNormalization L ⟨Matrix.of fun i j => ∑ k, a.elem k i * b.elem k j, a.flip != b.flip,
    a.valid && b.valid, a.age + b.age⟩

/-- rotmatrix_funcs.h 137-157 `InvProdInv(m1, m2)`. -/
noncomputable def invProdInv (L : Limits) (a b : RotMat n) : RotMat n :=
  checkNormalization L ⟨Matrix.of fun i j => ∑ k, a.elem k i * b.elem j k, a.flip != b.flip,
    a.valid && b.valid, a.age + b.age⟩

/-- rotmatrix_funcs.h 159-174 `Prod(m, v)`, `operator*(m, v)` 211-215. -/
noncomputable def mulVec (m : RotMat n) (v : Vec n) : Vec n :=
  ⟨fun i => ∑ j, m.elem i j * v.elem j, m.valid && v.valid⟩

/-- rotmatrix_funcs.h 176-191 `InvProd(m, v)`. -/
noncomputable def invMulVec (m : RotMat n) (v : Vec n) : Vec n :=
  ⟨fun i => ∑ j, m.elem j i * v.elem j, m.valid && v.valid⟩

/-- rotmatrix_funcs.h 223-273 `setVals`/`_setVals` with `_MatrixSetValsImpl`, rotmatrix.cpp 160-256.

The orthogonality error of an array: rotmatrix.cpp 172-187. -/
noncomputable def orthError (vals : Matrix (Fin n) (Fin n) ℝ) : ℝ :=
  (List.finRange n).foldl (fun p i => (List.finRange n).foldl (fun p j =>
    let ans := |(∑ k, vals i k * vals j k) - (if i = j then 1 else 0)|
    if ans ≥ p then ans else p) p) 0

/-- rotmatrix.cpp 220-239: one improvement step; `none`: degenerate. -/
noncomputable def improve (L : Limits) (vals : Matrix (Fin n) (Fin n) ℝ) :
    Option (Matrix (Fin n) (Fin n) ℝ) :=
  (inverseImpl L (Matrix.of fun i j => vals j i) identityArr).map fun buf2 =>
    Matrix.of fun i j => (vals i j + buf2 i j) / 2

/-- Outcome of the loop in `_MatrixSetValsImpl`: accepted with the final values, refused, or still
running when the given number of iterations is used up (the C++ loop has no such limit). -/
inductive LoopResult (α : Type) where
  | accepted (a : α)
  | refused
  | outOfFuel

/-- rotmatrix.cpp 171-244: the `while(true)` loop. -/
noncomputable def setValsLoop (L : Limits) (precision : ℝ) :
    Nat → Matrix (Fin n) (Fin n) ℝ → LoopResult (Matrix (Fin n) (Fin n) ℝ)
  | 0, _ => .outOfFuel
  | fuel + 1, vals =>
    if orthError vals > precision then .refused
    else if orthError vals ≤ epsilon then .accepted vals
    else match improve L vals with
      | none => .refused
      | some vals => setValsLoop L precision fuel vals

/-- rotmatrix_funcs.h 251-273 `_setVals` with rotmatrix.cpp 160-170 and 246-255: the matrix after the
call and the returned flag. -/
noncomputable def setVals (L : Limits) (fuel : Nat) (m : RotMat n) (vals : Matrix (Fin n) (Fin n) ℝ)
    (precision : ℝ) : Option (RotMat n × Bool) :=
  if |precision| ≥ 0.9 then some (m, false)
  else match setValsLoop L |precision| fuel vals with
    | .outOfFuel => none
    | .refused => some (m, false)
    | .accepted v => some (⟨v, decide (determinantImpl L v < 0), true, 1⟩, true)

/-- rotmatrix_funcs.h 275-286 `row`. -/
def row (m : RotMat n) (i : Fin n) : Vec n := ⟨fun j => m.elem i j, m.valid⟩
/-- rotmatrix_funcs.h 288-299 `column`. -/
def column (m : RotMat n) (i : Fin n) : Vec n := ⟨fun j => m.elem j i, m.valid⟩

/-- rotmatrix_funcs.h 301-315 `inverse`. -/
def inverse (m : RotMat n) : RotMat n := ⟨Matrix.of fun j i => m.elem i j, m.flip, m.valid, m.age + 1⟩

/-- rotmatrix_funcs.h 317-329 `identity`. -/
def identity : RotMat n := ⟨Matrix.of fun i j => if i = j then 1 else 0, false, true, 0⟩

/-- rotmatrix_funcs.h 331-340 `trace`. -/
noncomputable def trace (m : RotMat n) : ℝ := ∑ i, m.elem i i

/-- rotmatrix.h 144 `determinant`. -/
noncomputable def determinant (m : RotMat n) : ℝ := if m.flip then -1 else 1

/-- rotmatrix_funcs.h 342-374 `rotation(i, j, theta)`; `none`: the axes are equal (assertion). -/
noncomputable def rotation (i j : Fin n) (theta : ℝ) : Option (RotMat n) :=
  if i = j then none
  else some ⟨Matrix.of fun k l =>
      if k = l then (if k = i ∨ k = j then Real.cos theta else 1)
      else if k = i ∧ l = j then Real.sin theta
      else if k = j ∧ l = i then -Real.sin theta
      else 0, false, true, 1⟩

/-- rotmatrix_funcs.h 387: the component of `v2` perpendicular to `v1`. -/
noncomputable def vperp (v1 v2 : Vec n) : Vec n := v2 - (v1.scale (v1.dot v2)).divBy v1.sqrMag

/-- rotmatrix_funcs.h 376-419 `rotation(v1, v2, theta)`. -/
noncomputable def rotationPlane (v1 v2 : Vec n) (theta : ℝ) : Except Err (RotMat n) :=
  if ¬ v1.sqrMag > 0 then .error .assertion
  else
    let vp := vperp v1 v2
    if vp.sqrMag / v1.sqrMag < n * epsilon * epsilon then
      (if v2.sqrMag > 0 then .error .colinear else .error .assertion)
    else
      let magProd := Real.sqrt (v1.sqrMag * vp.sqrMag)
      .ok ⟨Matrix.of fun i j => (if i = j then 1 else 0) +
          ((Real.cos theta - 1) * (v1.elem i * v1.elem j / v1.sqrMag + vp.elem i * vp.elem j / vp.sqrMag)
            - Real.sin theta * (vp.elem i * v1.elem j - v1.elem i * vp.elem j) / magProd),
        false, true, 1⟩

/-- rotmatrix_funcs.h 421-481 `rotation(from, to)`; the special case 439-449 applies in two dimensions. -/
noncomputable def rotationFromTo (from_ to_ : Vec n) : Except Err (RotMat n) :=
  if ¬ from_.sqrMag > 0 then .error .assertion
  else if ¬ to_.sqrMag > 0 then .error .assertion
  else
    let dot := from_.dot to_
    let sqrmagprod := from_.sqrMag * to_.sqrMag
    let magprod := Real.sqrt sqrmagprod
    let ctp1 := dot / magprod + 1
    if ctp1 < epsilon then
      if h : n = 2 then
        let i0 : Fin n := ⟨0, by omega⟩
        let i1 : Fin n := ⟨1, by omega⟩
        let sinTheta := Real.sqrt (2 * ctp1)
        let direction := decide (to_.elem i0 * from_.elem i1 - to_.elem i1 * from_.elem i0 ≥ 0)
        let e01 := if direction then sinTheta else -sinTheta
        .ok ⟨Matrix.of fun i j => if i = j then ctp1 - 1 else if i = i0 then e01 else -e01, false, true, 1⟩
      else .error .colinear
    else
      let combined := fun i j : Fin n =>
        (from_.elem i * from_.elem j / from_.sqrMag + to_.elem i * to_.elem j / to_.sqrMag
          - (from_.elem i * to_.elem j + to_.elem i * from_.elem j) * dot / sqrmagprod) / ctp1
      let diffterm := fun i j : Fin n =>
        (to_.elem i * from_.elem j - from_.elem i * to_.elem j) / magprod
      .ok ⟨Matrix.of fun i j =>
          if i = j then 1 - combined i i
          else if i < j then -diffterm i j - combined i j
          else diffterm j i - combined j i, false, true, 1⟩

/-- rotmatrix.h 268-277 `mirror(i)`. -/
def mirrorAxis (i : Fin n) : RotMat n :=
  ⟨Matrix.of fun k l => if k = i ∧ l = i then -1 else if k = l then 1 else 0, true, true, 0⟩

/-- rotmatrix_funcs.h 491-518 `mirror(v)`; `none`: zero vector (assertion). -/
noncomputable def mirrorDir (v : Vec n) : Option (RotMat n) :=
  if ¬ v.sqrMag > 0 then none
  else some ⟨Matrix.of fun i j =>
      if i = j then 1 - 2 * v.elem i * v.elem i / v.sqrMag
      else if i < j then -2 * v.elem i * v.elem j / v.sqrMag
      else -2 * v.elem j * v.elem i / v.sqrMag, true, true, 1⟩

/-- rotmatrix_funcs.h 520-533 `mirror()`. -/
def mirrorAll : RotMat n := ⟨Matrix.of fun i j => if i = j then -1 else 0, n % 2 == 1, true, 0⟩

end RotMat

/-- rotmatrix_funcs.h 193-197 `Prod(v, m)`, `operator*(v, m)` 217-221, and `Vector::rotate(m)`
(vector_funcs.h 194-198). -/
noncomputable def Vec.rotateM {n : Nat} (v : Vec n) (m : RotMat n) : Vec n := m.invMulVec v

/-- rotmatrix_funcs.h 199-203 `ProdInv(v, m)`. -/
noncomputable def Vec.prodInvM {n : Nat} (v : Vec n) (m : RotMat n) : Vec n := m.mulVec v

/-- vector_funcs.h 186-192 `Vector::rotate(v1, v2, theta)`. -/
noncomputable def Vec.rotatePlane {n : Nat} (v v1 v2 : Vec n) (theta : ℝ) : Except Err (Vec n) :=
  (RotMat.rotationPlane v1 v2 theta).map fun m => v.rotateM m

end WFMath
