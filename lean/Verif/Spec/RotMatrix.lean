/-
What it means for a `RotMatrix` to be a rotation, and histories of matrix operations.
-/
import Verif.Model.RotMatrix

namespace WFMath.Spec
open Matrix Gauss
variable {n : Nat}

/-- The stored array is an orthogonal matrix whose determinant is `+1` or `-1` as the parity flag says. -/
structure IsRotation (m : RotMat n) : Prop where
  orth : m.elem * m.elemᵀ = 1
  det : m.elem.det = if m.flip then -1 else 1

/-- The inner product of two vectors is returned exactly (it is not flushed to 0 by the cut-off). -/
def DotExact (u v : Vec n) : Prop := u.dot v = u.elem ⬝ᵥ v.elem

/-- A history of operations producing rotation matrices, as an expression. -/
inductive RotTerm (n : Nat) where
  | identity
  | mirrorAxis (i : Fin n)
  | mirrorDir (v : Vec n)
  | mirrorAll
  | rotation (i j : Fin n) (theta : ℝ)
  | rotationPlane (v1 v2 : Vec n) (theta : ℝ)
  | rotationFromTo (a b : Vec n)
  | prod (s t : RotTerm n)
  | prodInv (s t : RotTerm n)
  | invProd (s t : RotTerm n)
  | invProdInv (s t : RotTerm n)
  | inverse (s : RotTerm n)
  | normalize (s : RotTerm n)

/-- Running a history; `none` when a call asserts or throws. -/
noncomputable def RotTerm.eval (L : Limits) : RotTerm n → Option (RotMat n)
  | .identity => some RotMat.identity
  | .mirrorAxis i => some (RotMat.mirrorAxis i)
  | .mirrorDir v => RotMat.mirrorDir v
  | .mirrorAll => some RotMat.mirrorAll
  | .rotation i j θ => RotMat.rotation i j θ
  | .rotationPlane v1 v2 θ => (RotMat.rotationPlane v1 v2 θ).toOption
  | .rotationFromTo a b => (RotMat.rotationFromTo a b).toOption
  | .prod s t => do RotMat.prod L (← s.eval L) (← t.eval L)
  | .prodInv s t => do RotMat.prodInv L (← s.eval L) (← t.eval L)
  | .invProd s t => do RotMat.invProd L (← s.eval L) (← t.eval L)
  | .invProdInv s t => do RotMat.invProdInv L (← s.eval L) (← t.eval L)
  | .inverse s => do RotMat.inverse (← s.eval L)
  | .normalize s => do RotMat.normalize L (← s.eval L)

/-- No inner product computed in the history is flushed to 0, and in two dimensions a rotation taking one
vector to another is not asked for vectors that are nearly but not exactly opposite. -/
def RotTerm.Exact : RotTerm n → Prop
  | .rotationPlane v1 v2 _ => DotExact v1 v2
  | .rotationFromTo a b => DotExact a b ∧
      (n = 2 → epsilon ≤ (a.elem ⬝ᵥ b.elem) / (a.mag * b.mag) + 1 ∨ (a.elem ⬝ᵥ b.elem) / (a.mag * b.mag) + 1 = 0)
  | .prod s t => s.Exact ∧ t.Exact
  | .prodInv s t => s.Exact ∧ t.Exact
  | .invProd s t => s.Exact ∧ t.Exact
  | .invProdInv s t => s.Exact ∧ t.Exact
  | .inverse s => s.Exact
  | .normalize s => s.Exact
  | _ => True

end WFMath.Spec
