/-
Doubles that are not NaN as extended real numbers, and boxes whose corners may have infinite coordinates. The specification used by C148.
-/
import Verif.Spec.Ieee
import Mathlib.Data.EReal.Basic
import Mathlib.Data.EReal.Operations

namespace WFMath.Spec

/-- The extended real number a double stands for. NaN stands for none; 0 is a placeholder that no statement uses. -/
noncomputable def Dbl.ext : Dbl → EReal
  | .num x => (x : EReal)
  | .inf true => ⊥
  | .inf false => ⊤
  | .nan => 0

/-- A finite double or an infinity. -/
def Dbl.Fine : Dbl → Prop
  | .num x => IsFinite x
  | .inf _ => True
  | .nan => False

/-- The points of space in the box with corners `lo` and `hi`, which reaches to infinity where a corner has an infinite coordinate. -/
def Reach {n : Nat} (lo hi : Fin n → Dbl) : Set (Fin n → ℝ) := {x | ∀ i, (lo i).ext ≤ (x i : EReal) ∧ (x i : EReal) ≤ (hi i).ext}

end WFMath.Spec
