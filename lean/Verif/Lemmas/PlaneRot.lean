/- Rotations in a plane spanned by two orthonormal vectors, as matrices. -/
import Mathlib.LinearAlgebra.Matrix.SchurComplement
import Mathlib.LinearAlgebra.Matrix.Determinant.Basic
import Mathlib.LinearAlgebra.Matrix.NonsingularInverse
import Mathlib.Analysis.SpecialFunctions.Trigonometric.Inverse
import Mathlib.Tactic.Linarith
import Mathlib.Tactic.NoncommRing
import Mathlib.Tactic.Module

namespace WFMath
open Matrix
variable {n : Nat}

/-- `1 + (a - 1)(u uᵀ + w wᵀ) - b (w uᵀ - u wᵀ)`. -/
def planeMat (u w : Fin n → ℝ) (a b : ℝ) : Matrix (Fin n) (Fin n) ℝ :=
  1 + (a - 1) • (vecMulVec u u + vecMulVec w w) - b • (vecMulVec w u - vecMulVec u w)

structure Orthonormal2 (u w : Fin n → ℝ) : Prop where
  uu : u ⬝ᵥ u = 1
  ww : w ⬝ᵥ w = 1
  uw : u ⬝ᵥ w = 0

theorem Orthonormal2.wu {u w : Fin n → ℝ} (h : Orthonormal2 u w) : w ⬝ᵥ u = 0 := by
  rw [dotProduct_comm]; exact h.uw

theorem planeMat_mul {u w : Fin n → ℝ} (h : Orthonormal2 u w) (a b c d : ℝ) :
    planeMat u w a b * planeMat u w c d = planeMat u w (a * c - b * d) (a * d + b * c) := by
  have e1 : vecMulVec u u * vecMulVec u u = vecMulVec u u := by
    rw [vecMulVec_mul_vecMulVec, h.uu, one_smul]
  have e2 : vecMulVec u u * vecMulVec w w = 0 := by
    rw [vecMulVec_mul_vecMulVec, h.uw, zero_smul, vecMulVec_zero]
  have e3 : vecMulVec u u * vecMulVec w u = 0 := by
    rw [vecMulVec_mul_vecMulVec, h.uw, zero_smul, vecMulVec_zero]
  have e4 : vecMulVec u u * vecMulVec u w = vecMulVec u w := by
    rw [vecMulVec_mul_vecMulVec, h.uu, one_smul]
  have f1 : vecMulVec w w * vecMulVec u u = 0 := by
    rw [vecMulVec_mul_vecMulVec, h.wu, zero_smul, vecMulVec_zero]
  have f2 : vecMulVec w w * vecMulVec w w = vecMulVec w w := by
    rw [vecMulVec_mul_vecMulVec, h.ww, one_smul]
  have f3 : vecMulVec w w * vecMulVec w u = vecMulVec w u := by
    rw [vecMulVec_mul_vecMulVec, h.ww, one_smul]
  have f4 : vecMulVec w w * vecMulVec u w = 0 := by
    rw [vecMulVec_mul_vecMulVec, h.wu, zero_smul, vecMulVec_zero]
  have g1 : vecMulVec w u * vecMulVec u u = vecMulVec w u := by
    rw [vecMulVec_mul_vecMulVec, h.uu, one_smul]
  have g2 : vecMulVec w u * vecMulVec w w = 0 := by
    rw [vecMulVec_mul_vecMulVec, h.uw, zero_smul, vecMulVec_zero]
  have g3 : vecMulVec w u * vecMulVec w u = 0 := by
    rw [vecMulVec_mul_vecMulVec, h.uw, zero_smul, vecMulVec_zero]
  have g4 : vecMulVec w u * vecMulVec u w = vecMulVec w w := by
    rw [vecMulVec_mul_vecMulVec, h.uu, one_smul]
  have k1 : vecMulVec u w * vecMulVec u u = 0 := by
    rw [vecMulVec_mul_vecMulVec, h.wu, zero_smul, vecMulVec_zero]
  have k2 : vecMulVec u w * vecMulVec w w = vecMulVec u w := by
    rw [vecMulVec_mul_vecMulVec, h.ww, one_smul]
  have k3 : vecMulVec u w * vecMulVec w u = vecMulVec u u := by
    rw [vecMulVec_mul_vecMulVec, h.ww, one_smul]
  have k4 : vecMulVec u w * vecMulVec u w = 0 := by
    rw [vecMulVec_mul_vecMulVec, h.wu, zero_smul, vecMulVec_zero]
  unfold planeMat
  generalize vecMulVec u u = A at *
  generalize vecMulVec w w = B at *
  generalize vecMulVec w u = C at *
  generalize vecMulVec u w = D at *
  simp only [Matrix.add_mul, Matrix.sub_mul, Matrix.mul_add, Matrix.mul_sub, Matrix.smul_mul,
    Matrix.mul_smul, Matrix.one_mul, Matrix.mul_one, e1, e2, e3, e4, f1, f2, f3, f4, g1, g2, g3, g4,
    k1, k2, k3, k4]
  module

theorem planeMat_one (u w : Fin n → ℝ) : planeMat u w 1 0 = 1 := by
  unfold planeMat; simp

theorem planeMat_transpose (u w : Fin n → ℝ) (a b : ℝ) : (planeMat u w a b)ᵀ = planeMat u w a (-b) := by
  unfold planeMat
  simp only [transpose_add, transpose_sub, transpose_smul, transpose_vecMulVec, transpose_one]
  module

theorem planeMat_orth {u w : Fin n → ℝ} (h : Orthonormal2 u w) {a b : ℝ} (hab : a ^ 2 + b ^ 2 = 1) :
    planeMat u w a b * (planeMat u w a b)ᵀ = 1 := by
  rw [planeMat_transpose, planeMat_mul h, ← planeMat_one u w]
  congr 1 <;> linarith

theorem det_sq_of_orth {A : Matrix (Fin n) (Fin n) ℝ} (h : A * Aᵀ = 1) : A.det ^ 2 = 1 := by
  have := congrArg Matrix.det h
  rw [det_mul, det_transpose, det_one] at this
  rw [pow_two]; exact this

theorem planeMat_det {u w : Fin n → ℝ} (h : Orthonormal2 u w) (θ : ℝ) :
    (planeMat u w (Real.cos θ) (Real.sin θ)).det = 1 := by
  have h2 : planeMat u w (Real.cos θ) (Real.sin θ)
      = planeMat u w (Real.cos (θ / 2)) (Real.sin (θ / 2)) * planeMat u w (Real.cos (θ / 2)) (Real.sin (θ / 2)) := by
    rw [planeMat_mul h]
    have e1 := Real.cos_add (θ / 2) (θ / 2)
    have e2 := Real.sin_add (θ / 2) (θ / 2)
    rw [add_halves] at e1 e2
    rw [e1, e2]; congr 1; ring
  rw [h2, det_mul, ← pow_two]
  exact det_sq_of_orth (planeMat_orth h (by rw [add_comm]; exact Real.sin_sq_add_cos_sq _))

theorem planeMat_det' {u w : Fin n → ℝ} (h : Orthonormal2 u w) {a b : ℝ} (hab : a ^ 2 + b ^ 2 = 1) :
    (planeMat u w a b).det = 1 := by
  by_cases hb : 0 ≤ b
  · have := planeMat_det h (Real.arccos a)
    rwa [Real.cos_arccos (by nlinarith) (by nlinarith), Real.sin_arccos,
      show 1 - a ^ 2 = b ^ 2 by linarith, Real.sqrt_sq hb] at this
  · have := planeMat_det h (-Real.arccos a)
    rw [Real.cos_neg, Real.sin_neg, Real.cos_arccos (by nlinarith) (by nlinarith), Real.sin_arccos,
      show 1 - a ^ 2 = (-b) ^ 2 by linarith, Real.sqrt_sq (by linarith), neg_neg] at this
    exact this

/-- Action on row vectors. -/
theorem vecMul_planeMat (u w x : Fin n → ℝ) (a b : ℝ) :
    x ᵥ* planeMat u w a b = x + ((a - 1) * (x ⬝ᵥ u) - b * (x ⬝ᵥ w)) • u
      + ((a - 1) * (x ⬝ᵥ w) + b * (x ⬝ᵥ u)) • w := by
  unfold planeMat
  rw [vecMul_sub, vecMul_add, vecMul_one, vecMul_smul, vecMul_smul, vecMul_add, vecMul_sub,
    vecMul_vecMulVec, vecMul_vecMulVec, vecMul_vecMulVec, vecMul_vecMulVec]
  module

theorem planeMat_apply (u w : Fin n → ℝ) (a b : ℝ) (i j : Fin n) :
    planeMat u w a b i j = (if i = j then 1 else 0) + (a - 1) * (u i * u j + w i * w j)
      - b * (w i * u j - u i * w j) := by
  unfold planeMat
  simp [vecMulVec_apply, Matrix.one_apply]
  ring

/-- Determinant of a reflection in a hyperplane. -/
theorem det_reflection (u : Fin n → ℝ) (h : u ⬝ᵥ u = 1) : (1 - (2 : ℝ) • vecMulVec u u).det = -1 := by
  have := det_one_add_replicateCol_mul_replicateRow (ι := Unit) ((-2 : ℝ) • u) u
  rw [← vecMulVec_eq, smul_vecMulVec] at this
  rw [sub_eq_add_neg, ← neg_smul, this, dotProduct_smul, h]
  norm_num

end WFMath
