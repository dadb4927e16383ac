/- What is assumed of `std::sin` and `std::cos`. -/
import Mathlib.Analysis.SpecialFunctions.Trigonometric.Basic

namespace WFMath.Spec

/-- The functions `sin` and `cos` of a C library: all that is assumed is that a result is off by at most `2⁻⁵²` (the distance of neighbouring doubles just above 1). -/
structure Trig where
  sin : ℝ → ℝ
  cos : ℝ → ℝ
  sin_err : ∀ x, |sin x - Real.sin x| ≤ 2 ^ (-52 : ℤ)
  cos_err : ∀ x, |cos x - Real.cos x| ≤ 2 ^ (-52 : ℤ)

end WFMath.Spec
