/-
Specification of quaternions: Mathlib's Hamilton quaternions and the rotation `v ↦ h v h⁻¹` of space they
stand for, and histories of quaternion operations.
-/
import Verif.Model.Quaternion
import Verif.Spec.RotMatrix
import Mathlib.Analysis.Quaternion
import Mathlib.LinearAlgebra.CrossProduct

namespace WFMath.Spec
open Quaternion Matrix Gauss

/-- The Hamilton quaternion `w + x i + y j + z k` stored in a `Quaternion`. -/
def toH (q : Quat) : ℍ[ℝ] := ⟨q.w, q.vec.elem 0, q.vec.elem 1, q.vec.elem 2⟩

/-- A vector as a purely imaginary quaternion. -/
def pureH (v : Fin 3 → ℝ) : ℍ[ℝ] := ⟨0, v 0, v 1, v 2⟩

/-- The imaginary part as a vector. -/
def vecOf (h : ℍ[ℝ]) : Fin 3 → ℝ := ![h.imI, h.imJ, h.imK]

/-- The rotation of space that a nonzero quaternion stands for. -/
noncomputable def act (h : ℍ[ℝ]) (v : Fin 3 → ℝ) : Fin 3 → ℝ := vecOf (h * pureH v * h⁻¹)

/-- The cross product of two vectors is returned exactly (no component is flushed to 0). -/
def CrossExact (u v : Vec 3) : Prop := (cross3 u v).elem = u.elem ⨯₃ v.elem


/-- The inner and cross products formed when `v` is rotated by `q` are exact. -/
def RotExact (v : Vec 3) (q : Quat) : Prop := DotExact q.vec v ∧ CrossExact q.vec v

/-- A history of operations producing quaternions. -/
inductive QTerm where
  | identity
  | ofComponents (w x y z : ℝ)
  | rotationIdx (axis : ℤ) (angle : ℝ)
  | rotationAxis (axis : Vec 3) (angle : ℝ)
  | rotationMag (axis : Vec 3)
  | rotationFromTo (a b : Vec 3)
  | rotationFromToOr (a b fallback : Vec 3)
  | fromRotMatrix (m : RotMat 3)
  | mul (s t : QTerm)
  | div (s t : QTerm)
  | inverse (s : QTerm)
  | normalize (s : QTerm)

/-- Running a history; `none` when a call throws. -/
noncomputable def QTerm.eval (L : Limits) : QTerm → Option Quat
  | .identity => some Quat.identity
  | .ofComponents w x y z => some (Quat.ofComponents w x y z)
  | .rotationIdx i a => some (Quat.default.rotationIdx i a)
  | .rotationAxis v a => some (Quat.default.rotationAxis v a)
  | .rotationMag v => some (Quat.default.rotationMag v)
  | .rotationFromTo a b => (Quat.default.rotationFromTo a b).toOption
  | .rotationFromToOr a b c => some (Quat.default.rotationFromToOr a b c)
  | .fromRotMatrix m => some (Quat.fromRotMatrix L m).1
  | .mul s t => do Quat.mul (← s.eval L) (← t.eval L)
  | .div s t => do Quat.div (← s.eval L) (← t.eval L)
  | .inverse s => do Quat.inverse (← s.eval L)
  | .normalize s => do Quat.normalize (← s.eval L)

/-- The number of multiplications and divisions in a history. -/
def QTerm.products : QTerm → Nat
  | .mul s t => s.products + t.products + 1
  | .div s t => s.products + t.products + 1
  | .inverse s => s.products
  | .normalize s => s.products
  | _ => 0

/-- The arguments of the constructors in the history are meaningful: components that are not all zero, two
vectors whose inner and cross products are not flushed to 0, a matrix that is a rotation. -/
def QTerm.Sound : QTerm → Prop
  | .ofComponents w x y z => ¬ (w = 0 ∧ x = 0 ∧ y = 0 ∧ z = 0)
  | .rotationFromTo a b => DotExact a b ∧ CrossExact a b
  | .rotationFromToOr a b _ => DotExact a b ∧ CrossExact a b
  | .fromRotMatrix m => IsRotation m
  | .mul s t => s.Sound ∧ t.Sound
  | .div s t => s.Sound ∧ t.Sound
  | .inverse s => s.Sound
  | .normalize s => s.Sound
  | _ => True

/-- No product formed while running the history is flushed to 0 by the cut-offs. -/
def QTerm.Exact (L : Limits) : QTerm → Prop
  | .mul s t => s.Exact L ∧ t.Exact L ∧
      ∀ p q, s.eval L = some p → t.eval L = some q → DotExact p.vec q.vec ∧ CrossExact p.vec q.vec
  | .div s t => s.Exact L ∧ t.Exact L ∧
      ∀ p q, s.eval L = some p → t.eval L = some q → DotExact p.vec q.vec ∧ CrossExact p.vec q.vec
  | .inverse s => s.Exact L
  | .normalize s => s.Exact L
  | _ => True

end WFMath.Spec
