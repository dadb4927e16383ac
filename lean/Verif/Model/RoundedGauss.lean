/-
Inverting and renormalising rotation matrices with every arithmetic operation rounded to a `double`: the second reading, in floating point, of
`Model/Gauss.lean` and of `normalize`, `setVals` and the products in `Model/RotMatrix.lean`. Conventions and simplifications as in `Model/Rounded.lean` and
`Model/Gauss.lean`.
-/
import Verif.Model.Rounded
import Verif.Model.RotMatrix

namespace WFMath.Fl
open Spec Gauss
variable (r : Rounding 53) {n : Nat}

/-- rotmatrix.cpp 310-315 (and 265-270): the smallest acceptable squared pivot in column `i`. -/
noncomputable def minval (L : Limits) (m : Matrix (Fin n) (Fin n) ℝ) (i : Fin n) : ℝ :=
  let s := r (sum r (fun j => r (m j i * m j i)) / L.maxD)
  if s < L.minD then L.minD else s

/-- rotmatrix.cpp 317-320 (and 272-275): first row below `i` with an acceptable entry in column `i`. -/
noncomputable def findRow (L : Limits) (m : Matrix (Fin n) (Fin n) ℝ) (i : Fin n) : Option (Fin n) :=
  (List.finRange n).find? fun j => decide (j > i) && decide (r (m j i * m j i) ≥ minval r L m i)

/-- rotmatrix.cpp 309-327: make the pivot nonzero by adding a lower row; `none`: `return false`. -/
noncomputable def pivot (L : Limits) (i : Fin n) (s : Matrix (Fin n) (Fin n) ℝ × Matrix (Fin n) (Fin n) ℝ) :
    Option (Matrix (Fin n) (Fin n) ℝ × Matrix (Fin n) (Fin n) ℝ) :=
  if r (s.1 i i * s.1 i i) < minval r L s.1 i then
    match findRow r L s.1 i with
    | none => none
    | some j => some (fun k l => if k = i then r (s.1 i l + s.1 j l) else s.1 k l,
                      fun k l => if k = i then r (s.2 i l + s.2 j l) else s.2 k l)
  else some s

/-- rotmatrix.cpp 330-337: divide row `i` by the pivot (`in` only right of the diagonal). -/
noncomputable def scaleRow (i : Fin n) (s : Matrix (Fin n) (Fin n) ℝ × Matrix (Fin n) (Fin n) ℝ) :
    Matrix (Fin n) (Fin n) ℝ × Matrix (Fin n) (Fin n) ℝ :=
  let tmp := s.1 i i
  (fun k l => if k = i then (if l = i then 1 else if l > i then r (s.1 i l / tmp) else s.1 i l) else s.1 k l,
   fun k l => if k = i then r (s.2 i l / tmp) else s.2 k l)

/-- rotmatrix.cpp 339-349: subtract multiples of row `i` from the rows below. The cell `in[j][i]` ends up as the negative of its old value, as in
`Gauss.clearBelow`. -/
noncomputable def clearBelow (i : Fin n) (s : Matrix (Fin n) (Fin n) ℝ × Matrix (Fin n) (Fin n) ℝ) :
    Matrix (Fin n) (Fin n) ℝ × Matrix (Fin n) (Fin n) ℝ :=
  (fun k l => if k > i then
      let tmp2 := s.1 k i
      let cleared := if l = i then 0 else s.1 k l
      if tmp2 ≠ 0 then r (cleared - r (s.1 i l * tmp2)) else cleared
    else s.1 k l,
   fun k l => if k > i then
      let tmp2 := s.1 k i
      if tmp2 ≠ 0 then r (s.2 k l - r (s.2 i l * tmp2)) else s.2 k l
    else s.2 k l)

/-- rotmatrix.cpp 307-350: one iteration of the forward pass. -/
noncomputable def forwardStep (L : Limits) (i : Fin n) (s : Matrix (Fin n) (Fin n) ℝ × Matrix (Fin n) (Fin n) ℝ) :
    Option (Matrix (Fin n) (Fin n) ℝ × Matrix (Fin n) (Fin n) ℝ) :=
  (pivot r L i s).map fun s => clearBelow r i (scaleRow r i s)

/-- rotmatrix.cpp 307-350: the forward pass over a list of columns. -/
noncomputable def forward (L : Limits) : List (Fin n) → Matrix (Fin n) (Fin n) ℝ × Matrix (Fin n) (Fin n) ℝ →
    Option (Matrix (Fin n) (Fin n) ℝ × Matrix (Fin n) (Fin n) ℝ)
  | [], s => some s
  | i :: is, s => (forwardStep r L i s).bind (forward L is)

/-- rotmatrix.cpp 356-362: for a fixed column `i`, subtract row `i` of `out` from the rows above. -/
noncomputable def backStep (m : Matrix (Fin n) (Fin n) ℝ) (i : Fin n) (out : Matrix (Fin n) (Fin n) ℝ) : Matrix (Fin n) (Fin n) ℝ :=
  fun k l => if k < i then (if m k i ≠ 0 then r (out k l - r (out i l * m k i)) else out k l) else out k l

/-- rotmatrix.cpp 302-366 `_MatrixInverseImpl(size, in, out)`: the new `out`, or `none` for `false`. -/
noncomputable def inverseImpl (L : Limits) (m out : Matrix (Fin n) (Fin n) ℝ) : Option (Matrix (Fin n) (Fin n) ℝ) :=
  (forward r L (List.finRange n) (m, out)).map fun s => (List.finRange n).foldr (backStep r s.1) s.2

/-- rotmatrix_funcs.h 537-552: the inverse computed inside `normalize()`; `none`: failed assertion. -/
noncomputable def normalizeBuf (L : Limits) (m : RotMat n) : Option (Matrix (Fin n) (Fin n) ℝ) :=
  inverseImpl r L (Matrix.of fun i j => m.elem j i) identityArr

/-- rotmatrix_funcs.h 537-567 `normalize` of rotation matrices. When the inversion fails, the build with assertions aborts (`normalizeBuf = none`); the other
build returns the matrix unchanged, which is what is modelled. -/
noncomputable def rotNormalize (L : Limits) (m : RotMat n) : RotMat n :=
  match normalizeBuf r L m with
  | none => m
  | some buf2 => ⟨Matrix.of fun i j => r (r (m.elem i j + buf2 i j) / 2), m.flip, m.valid, 1⟩

/-- rotmatrix.h 259 `checkNormalization`. -/
noncomputable def checkNormalization (L : Limits) (m : RotMat n) : RotMat n :=
  if m.age ≥ maxNormAge ∧ m.valid = true then rotNormalize r L m else m

/-- rotmatrix_funcs.h 71-91 `Prod(m1, m2)`, all of it. -/
noncomputable def prodFull (L : Limits) (a b : RotMat n) : RotMat n := checkNormalization r L (prod r a b)
/-- rotmatrix_funcs.h 93-113 `ProdInv(m1, m2)`. -/
noncomputable def prodInvFull (L : Limits) (a b : RotMat n) : RotMat n := checkNormalization r L (prodInv r a b)
/-- rotmatrix_funcs.h 115-135 `InvProd(m1, m2)`. -/
noncomputable def invProdFull (L : Limits) (a b : RotMat n) : RotMat n := checkNormalization r L (invProd r a b)
/-- rotmatrix_funcs.h 137-157 `InvProdInv(m1, m2)`. -/
noncomputable def invProdInvFull (L : Limits) (a b : RotMat n) : RotMat n := checkNormalization r L (invProdInv r a b)

/-- rotmatrix.cpp 172-187: the orthogonality error of an array. `--ans` is a subtraction, also rounded. -/
noncomputable def orthError (vals : Matrix (Fin n) (Fin n) ℝ) : ℝ :=
  (List.finRange n).foldl (fun p i => (List.finRange n).foldl (fun p j =>
    let ans := sum r fun k => r (vals i k * vals j k)
    let ans := |if i = j then r (ans - 1) else ans|
    if ans ≥ p then ans else p) p) 0

/-- rotmatrix.cpp 220-239: one improvement step; `none`: degenerate. -/
noncomputable def improve (L : Limits) (vals : Matrix (Fin n) (Fin n) ℝ) : Option (Matrix (Fin n) (Fin n) ℝ) :=
  (inverseImpl r L (Matrix.of fun i j => vals j i) identityArr).map fun buf2 => Matrix.of fun i j => r (r (vals i j + buf2 i j) / 2)

/-- rotmatrix.cpp 171-244: the `while(true)` loop. -/
noncomputable def setValsLoop (L : Limits) (precision : ℝ) : Nat → Matrix (Fin n) (Fin n) ℝ → RotMat.LoopResult (Matrix (Fin n) (Fin n) ℝ)
  | 0, _ => .outOfFuel
  | fuel + 1, vals =>
    if orthError r vals > precision then .refused
    else if orthError r vals ≤ epsilon then .accepted vals
    else match improve r L vals with
      | none => .refused
      | some vals => setValsLoop L precision fuel vals

/-- rotmatrix.cpp 265-281: the pivot of the determinant helper; `none`: `return 0`. -/
noncomputable def detPivot (L : Limits) (i : Fin n) (m : Matrix (Fin n) (Fin n) ℝ) : Option (Matrix (Fin n) (Fin n) ℝ) :=
  if r (m i i * m i i) < minval r L m i then
    match findRow r L m i with
    | none => none
    | some j => some fun k l => if k = i then (if l = i then m j i else if l > i then r (m i l + m j l) else m i l) else m k l
  else some m

/-- rotmatrix.cpp 282-291. -/
noncomputable def detClear (i : Fin n) (m : Matrix (Fin n) (Fin n) ℝ) : Matrix (Fin n) (Fin n) ℝ :=
  fun k l => if k > i then
      let factor := r (m k i / m i i)
      if l = i then 0
      else if factor ≠ 0 ∧ l > i then r (m k l - r (m i l * factor)) else m k l
    else m k l

/-- rotmatrix.cpp 264-292: the pass over a list of columns. -/
noncomputable def detForward (L : Limits) : List (Fin n) → Matrix (Fin n) (Fin n) ℝ → Option (Matrix (Fin n) (Fin n) ℝ)
  | [], m => some m
  | i :: is, m => (detPivot r L i m).bind fun m => detForward L is (detClear r i m)

/-- rotmatrix.cpp 258-300 `_MatrixDeterminantImpl`. -/
noncomputable def determinantImpl (L : Limits) (m : Matrix (Fin n) (Fin n) ℝ) : ℝ :=
  match detForward r L ((List.finRange n).filter fun i => i.val + 1 < n) m with
  | none => 0
  | some m => ((List.finRange n).map fun i => m i i).foldl (fun out x => r (out * x)) 1

/-- rotmatrix_funcs.h 251-273 `_setVals` with rotmatrix.cpp 160-170 and 246-255: the matrix after the call and the returned flag. -/
noncomputable def setVals (L : Limits) (fuel : Nat) (m : RotMat n) (vals : Matrix (Fin n) (Fin n) ℝ) (precision : ℝ) : Option (RotMat n × Bool) :=
  if |precision| ≥ 0.9 then some (m, false)
  else match setValsLoop r L |precision| fuel vals with
    | .outOfFuel => none
    | .refused => some (m, false)
    | .accepted v => some (⟨v, decide (determinantImpl r L v < 0), true, 1⟩, true)

end WFMath.Fl
