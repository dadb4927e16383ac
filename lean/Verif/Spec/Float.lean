/-
Floating point numbers and rounding to nearest, the small specification used by the theorems about rounding (C114 and following).
-/
import Mathlib.Data.Int.Log
import Mathlib.Algebra.Order.Round
import Mathlib.Data.Real.Archimedean
import Mathlib.Algebra.Order.Field.Power
import Mathlib.Tactic.Linarith
import Mathlib.Tactic.Positivity
import Mathlib.Tactic.FieldSimp
import Mathlib.Tactic.NormNum
import Mathlib.Tactic.Ring

namespace WFMath.Spec

/-- The numbers of a binary floating point format with `p` digits: an integer of at most `p` digits times a power of two. `double` has `p = 53`, `float` has `p = 24`.
Simplification: the exponent is not bounded, so there is no overflow, no infinity and no loss of digits near 0. -/
def IsFl (p : Nat) (x : ℝ) : Prop := ∃ m e : ℤ, |m| < 2 ^ p ∧ x = m * (2 : ℝ) ^ e

/-- Rounding to nearest, as IEEE 754 demands of every single arithmetic operation: the result is a floating point number and no other one is nearer. What is
done with ties is left open, except that `x` and `-x` are treated alike (true of ties to even, the default, and of ties away from zero). -/
structure Rounding (p : Nat) where
  rnd : ℝ → ℝ
  isFl : ∀ x, IsFl p (rnd x)
  nearest : ∀ x y, IsFl p y → |rnd x - x| ≤ |y - x|
  odd : ∀ x, rnd (-x) = -rnd x

instance (p : Nat) : CoeFun (Rounding p) (fun _ => ℝ → ℝ) := ⟨Rounding.rnd⟩

end WFMath.Spec
