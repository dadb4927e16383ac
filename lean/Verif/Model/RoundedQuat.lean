/-
Rotation matrices turned into quaternions (`quaternion.cpp`), with every arithmetic operation rounded to a `double`, as in `Model/Rounded.lean`.
-/
import Verif.Model.RoundedRot
import Verif.Model.RoundedGauss

namespace WFMath.Fl
open Spec
variable (r : Rounding 53) {n : Nat}

/-- rotmatrix_funcs.h 331-340 `trace`. -/
noncomputable def trace (m : Matrix (Fin n) (Fin n) ℝ) : ℝ := sum r fun i => m i i

/-- quaternion.cpp 151-182: the components computed by `fromRotMatrix` from the elements of a matrix, and the assertion `s > 0` of line 173 (`true` when the branch
with the assertion is not taken). Literals such as `0.5f` are exact. -/
noncomputable def fromMatrixComponents (m : Matrix (Fin 3) (Fin 3) ℝ) : ℝ × (Fin 3 → ℝ) × Bool :=
  let tr := trace r m
  if tr > 0 then
    let s := r (Real.sqrt (r (tr + 1)))
    let g := r (1 / 2 / s)
    (r (s / 2), ![r (r (m 2 1 - m 1 2) * g), r (r (m 0 2 - m 2 0) * g), r (r (m 1 0 - m 0 1) * g)], true)
  else
    let i : Fin 3 := if m 1 1 > m 0 0 then 1 else 0
    let i : Fin 3 := if m 2 2 > m i i then 2 else i
    let j := i + 1
    let k := j + 1
    let s := r (Real.sqrt (r (r (r (1 + m i i) - m j j) - m k k)))
    let g := r (1 / 2 / s)
    (r (r (m k j - m j k) * g), fun l =>
      if l = i then -r (s * (1 / 2)) else if l = j then r (r (m i j + m j i) * g) else r (r (m i k + m k i) * g), decide (s > 0))

/-- quaternion.cpp 138-187 `fromRotMatrix`: the quaternion and the returned flag; `none`: the assertion fails. For a matrix with a flip `Prod` is taken up to the
call of `checkNormalization`, which does nothing while the age is below 20. -/
noncomputable def fromRotMatrix (m : RotMat 3) : Option (Quat × Bool) :=
  let a := if m.flip then prod r m (RotMat.mirrorAxis 0) else m
  let c := fromMatrixComponents r a.elem
  if c.2.2 then some (⟨c.1, ⟨c.2.1, m.valid⟩, m.valid, m.age⟩, !m.flip) else none

/-- quaternion.cpp 138-187 `fromRotMatrix`, with all of `Prod`. -/
noncomputable def fromRotMatrixFull (L : Gauss.Limits) (m : RotMat 3) : Option (Quat × Bool) :=
  let a := if m.flip then prodFull r L m (RotMat.mirrorAxis 0) else m
  let c := fromMatrixComponents r a.elem
  if c.2.2 then some (⟨c.1, ⟨c.2.1, m.valid⟩, m.valid, m.age⟩, !m.flip) else none

/-- quaternion.cpp 198-205 `rotate(m)`. -/
noncomputable def qRotateMat (q : Quat) (m : RotMat 3) : Option Quat := (fromRotMatrix r m).map fun c => qMul r q c.1

end WFMath.Fl
