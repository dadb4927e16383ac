/-
Model of `/repo/src/wfmath/const.h`, `const.cpp`: tolerant comparison and its helpers.

`double` arithmetic is exact real arithmetic. The tolerance logic is modelled as written.
-/
import Mathlib.Data.Int.Log
import Mathlib.Data.Real.Archimedean
import Mathlib.Data.List.FinRange

namespace WFMath

/-- const.h 130-133 `numeric_constants<double>::epsilon()`: fudge factor 30 (const.h 61) times the
machine epsilon `2^-52`. -/
noncomputable def epsilon : ℝ := 30 * 2 ^ (-52 : ℤ)

/-- The exponent stored by `std::frexp(x, &exponent)`: `x = m * 2^exponent` with `1/2 ≤ |m| < 1`, and
exponent 0 for `x = 0`. -/
noncomputable def frexpExp (x : ℝ) : ℤ := if x = 0 then 0 else Int.log 2 |x| + 1

/-- `std::ldexp(x, e)`. -/
noncomputable def ldexp (x : ℝ) (e : ℤ) : ℝ := x * 2 ^ e

/-- const.cpp 71-80 `_ScaleEpsilon(double, double, double)`. -/
noncomputable def scaleEpsilon (x1 x2 eps : ℝ) : ℝ :=
  ldexp eps (frexpExp (if |x1| < |x2| then x1 else x2))

/-- const.cpp 98-106: running maximum of the absolute values. -/
noncomputable def maxAbs {n : Nat} (x : Fin n → ℝ) : ℝ :=
  (List.finRange n).foldl (fun m i => if |x i| > m then |x i| else m) 0

/-- const.cpp 93-109 `_ScaleEpsilon(const CoordType*, const CoordType*, int, CoordType)`. The assertion
`length > 0` holds since the length is always a dimension `dim ≥ 1`. -/
noncomputable def scaleEpsilonArr {n : Nat} (x1 x2 : Fin n → ℝ) (eps : ℝ) : ℝ :=
  scaleEpsilon (maxAbs x1) (maxAbs x2) eps

/-- const.cpp 55-61 `Equal(double, double, double)`. -/
noncomputable def equal (x1 x2 eps : ℝ) : Bool := decide (|x1 - x2| ≤ scaleEpsilon x1 x2 eps)

/-! The following only compare and copy, so they are modelled over any linear order. -/

/-- const.h 168-169 `FloatMax` (and `DoubleMax` 175-176). -/
def floatMax {α : Type} [LinearOrder α] (a b : α) : α := if a > b then a else b
/-- const.h 170-171 `FloatMin` (and `DoubleMin` 177-178). -/
def floatMin {α : Type} [LinearOrder α] (a b : α) : α := if a < b then a else b
/-- const.h 172-173 `FloatClamp` (and `DoubleClamp` 179-180). -/
def floatClamp {α : Type} [LinearOrder α] (val mn mx : α) : α :=
  if mn ≥ val then mn else if mx ≤ val then mx else val

end WFMath
