/- Specification vocabulary for the vector properties: expression trees over the public operators. -/
import Verif.Model.Vector

namespace WFMath.Spec

/-- Expressions a user can build from vectors with the public operators. -/
inductive VExpr (n : Nat) where
  | leaf (v : Vec n)
  | add (a b : VExpr n)
  | sub (a b : VExpr n)
  | neg (a : VExpr n)
  | scale (a : VExpr n) (d : ℝ)
  | divBy (a : VExpr n) (d : ℝ)
  | normalize (a : VExpr n) (norm : ℝ)
  | mirrorAxis (a : VExpr n) (i : Fin n)
  | mirrorAll (a : VExpr n)
  | mirrorDir (a b : VExpr n)

namespace VExpr
variable {n : Nat}

/-- Run the library's operators. -/
noncomputable def eval : VExpr n → Vec n
  | leaf v => v
  | add a b => a.eval + b.eval
  | sub a b => a.eval - b.eval
  | neg a => -a.eval
  | scale a d => a.eval.scale d
  | divBy a d => a.eval.divBy d
  | normalize a m => a.eval.normalize m
  | mirrorAxis a i => a.eval.mirrorAxis i
  | mirrorAll a => a.eval.mirrorAll
  | mirrorDir a b => a.eval.mirrorDir b.eval

/-- The vectors occurring in the expression. -/
def leaves : VExpr n → List (Vec n)
  | leaf v => [v]
  | add a b | sub a b | mirrorDir a b => a.leaves ++ b.leaves
  | neg a | scale a _ | divBy a _ | normalize a _ | mirrorAxis a _ | mirrorAll a => a.leaves

end VExpr
end WFMath.Spec
