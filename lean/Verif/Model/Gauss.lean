/-
Model of the Gaussian elimination helpers in `/repo/src/wfmath/rotmatrix.cpp`.

A `size * size` array `m[i*size+j]` is a matrix `m i j`. `maxD`, `minD` stand for
`numeric_limits<double>::max()` and `min()` (only their being positive is used).
An inner loop whose iterations write disjoint cells and read none of the cells written by the others is
written as one simultaneous update.
-/
import Mathlib.LinearAlgebra.Matrix.Determinant.Basic
import Mathlib.Data.Real.Archimedean
import Mathlib.Data.List.FinRange

namespace WFMath.Gauss

/-- `numeric_limits<double>::max()` and `min()`. -/
structure Limits where
  maxD : ℝ
  minD : ℝ
  maxD_pos : 0 < maxD
  minD_pos : 0 < minD

variable {n : Nat}

/-- rotmatrix.cpp 310-315 (and 265-270): the smallest acceptable squared pivot in column `i`. -/
noncomputable def minval (L : Limits) (m : Matrix (Fin n) (Fin n) ℝ) (i : Fin n) : ℝ :=
  let s := (∑ j, m j i * m j i) / L.maxD
  if s < L.minD then L.minD else s

/-- rotmatrix.cpp 317-320 (and 272-275): first row below `i` with an acceptable entry in column `i`. -/
noncomputable def findRow (L : Limits) (m : Matrix (Fin n) (Fin n) ℝ) (i : Fin n) : Option (Fin n) :=
  (List.finRange n).find? fun j => decide (j > i) && decide (m j i * m j i ≥ minval L m i)

/-- rotmatrix.cpp 309-327: make the pivot nonzero by adding a lower row; `none`: `return false`. -/
noncomputable def pivot (L : Limits) (i : Fin n) (s : Matrix (Fin n) (Fin n) ℝ × Matrix (Fin n) (Fin n) ℝ) :
    Option (Matrix (Fin n) (Fin n) ℝ × Matrix (Fin n) (Fin n) ℝ) :=
  if s.1 i i * s.1 i i < minval L s.1 i then
    match findRow L s.1 i with
    | none => none
    | some j => some (fun r k => if r = i then s.1 i k + s.1 j k else s.1 r k,
                      fun r k => if r = i then s.2 i k + s.2 j k else s.2 r k)
  else some s

/-- rotmatrix.cpp 330-337: divide row `i` by the pivot (`in` only right of the diagonal). -/
noncomputable def scaleRow (i : Fin n) (s : Matrix (Fin n) (Fin n) ℝ × Matrix (Fin n) (Fin n) ℝ) :
    Matrix (Fin n) (Fin n) ℝ × Matrix (Fin n) (Fin n) ℝ :=
  let tmp := s.1 i i
  (fun r k => if r = i then (if k = i then 1 else if k > i then s.1 i k / tmp else s.1 i k) else s.1 r k,
   fun r k => if r = i then s.2 i k / tmp else s.2 r k)

/-- rotmatrix.cpp 339-349: subtract multiples of row `i` from the rows below. As in the code, the cell
`in[j][i]` is first cleared and then changed again by the iteration `k = i`, so it ends up as the
negative of its old value and not as 0. -/
noncomputable def clearBelow (i : Fin n) (s : Matrix (Fin n) (Fin n) ℝ × Matrix (Fin n) (Fin n) ℝ) :
    Matrix (Fin n) (Fin n) ℝ × Matrix (Fin n) (Fin n) ℝ :=
  (fun r k => if r > i then
      let tmp2 := s.1 r i
      let cleared := if k = i then 0 else s.1 r k
      if tmp2 ≠ 0 then cleared - s.1 i k * tmp2 else cleared
    else s.1 r k,
   fun r k => if r > i then
      let tmp2 := s.1 r i
      if tmp2 ≠ 0 then s.2 r k - s.2 i k * tmp2 else s.2 r k
    else s.2 r k)

/-- rotmatrix.cpp 307-350: one iteration of the forward pass. -/
noncomputable def forwardStep (L : Limits) (i : Fin n)
    (s : Matrix (Fin n) (Fin n) ℝ × Matrix (Fin n) (Fin n) ℝ) :
    Option (Matrix (Fin n) (Fin n) ℝ × Matrix (Fin n) (Fin n) ℝ) :=
  (pivot L i s).map fun s => clearBelow i (scaleRow i s)

/-- rotmatrix.cpp 307-350: the forward pass over a list of columns. -/
noncomputable def forward (L : Limits) : List (Fin n) → Matrix (Fin n) (Fin n) ℝ × Matrix (Fin n) (Fin n) ℝ →
    Option (Matrix (Fin n) (Fin n) ℝ × Matrix (Fin n) (Fin n) ℝ)
  | [], s => some s
  | i :: is, s => (forwardStep L i s).bind (forward L is)

/-- rotmatrix.cpp 356-362: for a fixed column `i`, subtract row `i` of `out` from the rows above. -/
noncomputable def backStep (m : Matrix (Fin n) (Fin n) ℝ) (i : Fin n) (out : Matrix (Fin n) (Fin n) ℝ) :
    Matrix (Fin n) (Fin n) ℝ :=
  fun r k => if r < i then (if m r i ≠ 0 then out r k - out i k * m r i else out r k) else out r k

/-- The identity array all callers start `out` with (rotmatrix.cpp 223-228, rotmatrix_funcs.h 541-546). -/
def identityArr : Matrix (Fin n) (Fin n) ℝ := Matrix.of fun i j => if i = j then 1 else 0

/-- rotmatrix.cpp 302-366 `_MatrixInverseImpl(size, in, out)`: the new `out`, or `none` for `false`.
The backward pass runs over the columns from the last to the second; the iteration for column 0 that
this definition adds changes nothing. -/
noncomputable def inverseImpl (L : Limits) (m out : Matrix (Fin n) (Fin n) ℝ) :
    Option (Matrix (Fin n) (Fin n) ℝ) :=
  (forward L (List.finRange n) (m, out)).map fun s =>
    (List.finRange n).foldr (backStep s.1) s.2

/-! The determinant. -/

/-- rotmatrix.cpp 265-281: the pivot of the determinant helper. The pivot cell is overwritten by the
one of the lower row, the rest of the row is added. `none`: `return 0`. -/
noncomputable def detPivot (L : Limits) (i : Fin n) (m : Matrix (Fin n) (Fin n) ℝ) :
    Option (Matrix (Fin n) (Fin n) ℝ) :=
  if m i i * m i i < minval L m i then
    match findRow L m i with
    | none => none
    | some j => some fun r k =>
        if r = i then (if k = i then m j i else if k > i then m i k + m j k else m i k) else m r k
  else some m

/-- rotmatrix.cpp 282-291. -/
noncomputable def detClear (i : Fin n) (m : Matrix (Fin n) (Fin n) ℝ) : Matrix (Fin n) (Fin n) ℝ :=
  fun r k => if r > i then
      let factor := m r i / m i i
      if k = i then 0
      else if factor ≠ 0 ∧ k > i then m r k - m i k * factor else m r k
    else m r k

/-- rotmatrix.cpp 264-292: the pass over a list of columns. -/
noncomputable def detForward (L : Limits) : List (Fin n) → Matrix (Fin n) (Fin n) ℝ →
    Option (Matrix (Fin n) (Fin n) ℝ)
  | [], m => some m
  | i :: is, m => (detPivot L i m).bind fun m => detForward L is (detClear i m)

/-- rotmatrix.cpp 258-300 `_MatrixDeterminantImpl`. -/
noncomputable def determinantImpl (L : Limits) (m : Matrix (Fin n) (Fin n) ℝ) : ℝ :=
  match detForward L ((List.finRange n).filter fun i => i.val + 1 < n) m with
  | none => 0
  | some m => ((List.finRange n).map fun i => m i i).prod

end WFMath.Gauss
