/-
IEEE 754 double precision numbers with their limited range: gradual underflow, infinities and NaN. The specification used by C142 and C143.
-/
import Verif.Spec.Float
import Mathlib.Analysis.Real.Sqrt

namespace WFMath.Spec

/-- The numbers a double would have if it could be arbitrarily large: an integer of at most 53 digits times a power of two that is at least `2^-1074`. -/
def IsDbl (x : ℝ) : Prop := ∃ m e : ℤ, |m| < 2 ^ 53 ∧ -1074 ≤ e ∧ x = m * (2 : ℝ) ^ e

/-- The finite doubles. -/
def IsFinite (x : ℝ) : Prop := IsDbl x ∧ |x| < 2 ^ (1024 : ℤ)

/-- Rounding to nearest among these numbers; ties are left open as in `Rounding`. -/
structure Nearest where
  rnd : ℝ → ℝ
  isDbl : ∀ x, IsDbl (rnd x)
  nearest : ∀ x y, IsDbl y → |rnd x - x| ≤ |y - x|
  odd : ∀ x, rnd (-x) = -rnd x

instance : CoeFun Nearest (fun _ => ℝ → ℝ) := ⟨Nearest.rnd⟩

/-- A double: a finite number, an infinity (`true`: the negative one), or NaN. Simplification: 0 and -0 are one number, and a division by it is one by +0. -/
inductive Dbl where
  | num (x : ℝ)
  | inf (neg : Bool)
  | nan

namespace Dbl

/-- The result of an operation whose exact value is `x`: rounded as if the exponent could be arbitrarily large, then replaced by an infinity if it is 2^1024 or more
(IEEE 754, 7.4). -/
noncomputable def round (g : Nearest) (x : ℝ) : Dbl := if |g x| < 2 ^ (1024 : ℤ) then num (g x) else inf (decide (x < 0))

def neg : Dbl → Dbl
  | num x => num (-x)
  | inf s => inf !s
  | nan => nan
def abs : Dbl → Dbl
  | num x => num |x|
  | inf _ => inf false
  | nan => nan
noncomputable def add (g : Nearest) : Dbl → Dbl → Dbl
  | num x, num y => round g (x + y)
  | num _, inf s => inf s
  | inf s, num _ => inf s
  | inf s, inf t => if s = t then inf s else nan
  | _, _ => nan
noncomputable def sub (g : Nearest) (x y : Dbl) : Dbl := add g x (neg y)
noncomputable def mul (g : Nearest) : Dbl → Dbl → Dbl
  | num x, num y => round g (x * y)
  | num x, inf s => if x = 0 then nan else inf (s != decide (x < 0))
  | inf s, num x => if x = 0 then nan else inf (s != decide (x < 0))
  | inf s, inf t => inf (s != t)
  | _, _ => nan
noncomputable def div (g : Nearest) : Dbl → Dbl → Dbl
  | num x, num y => if y = 0 then (if x = 0 then nan else inf (decide (x < 0))) else round g (x / y)
  | num _, inf _ => num 0
  | inf s, num y => inf (s != decide (y < 0))
  | _, _ => nan
noncomputable def sqrt (g : Nearest) : Dbl → Dbl
  | num x => if x < 0 then nan else round g (Real.sqrt x)
  | inf s => if s then nan else inf s
  | nan => nan
/-- `x < y`; false if one of them is NaN. -/
noncomputable def lt : Dbl → Dbl → Bool
  | num x, num y => decide (x < y)
  | num _, inf s => !s
  | inf s, num _ => s
  | inf s, inf t => s && !t
  | _, _ => false
/-- `x <= y`; false if one of them is NaN. -/
noncomputable def le : Dbl → Dbl → Bool
  | num x, num y => decide (x ≤ y)
  | num _, inf s => !s
  | inf s, num _ => s
  | inf s, inf t => s || !t
  | _, _ => false

end Dbl
end WFMath.Spec

namespace WFMath

/-- 0, or between `2^a` and `2^b` in absolute value. -/
def Nrm (a b : ℤ) (x : ℝ) : Prop := x = 0 ∨ ((2 : ℝ) ^ a ≤ |x| ∧ |x| ≤ (2 : ℝ) ^ b)

end WFMath
