/- Conversion between unit quaternions and rotation matrices in three dimensions. -/
import Verif.Lemmas.Quaternion
import Mathlib.LinearAlgebra.Matrix.Adjugate

namespace WFMath
open Matrix Gauss Spec Quaternion

/-- Elements of SO(3): the entrywise facts used below. -/
structure SO3 (m : Matrix (Fin 3) (Fin 3) ℝ) : Prop where
  orth : m * mᵀ = 1
  det : m.det = 1

namespace SO3
variable {m : Matrix (Fin 3) (Fin 3) ℝ}

theorem row (h : SO3 m) (i j : Fin 3) : m i 0 * m j 0 + m i 1 * m j 1 + m i 2 * m j 2 = if i = j then 1 else 0 := by
  have := congrFun (congrFun h.orth i) j
  rw [Matrix.mul_apply, Fin.sum_univ_three, Matrix.one_apply] at this
  exact this

theorem col (h : SO3 m) (i j : Fin 3) : m 0 i * m 0 j + m 1 i * m 1 j + m 2 i * m 2 j = if i = j then 1 else 0 := by
  have h' : mᵀ * m = 1 := mul_eq_one_comm.1 h.orth
  have := congrFun (congrFun h' i) j
  rw [Matrix.mul_apply, Fin.sum_univ_three, Matrix.one_apply] at this
  exact this

theorem adj (h : SO3 m) : m.adjugate = mᵀ := by
  have h1 : m.adjugate * m = 1 := by rw [adjugate_mul, h.det, one_smul]
  calc m.adjugate = m.adjugate * (m * mᵀ) := by rw [h.orth, Matrix.mul_one]
    _ = mᵀ := by rw [← Matrix.mul_assoc, h1, Matrix.one_mul]

theorem cof (h : SO3 m) :
    m 0 0 = m 1 1 * m 2 2 - m 1 2 * m 2 1 ∧ m 0 1 = m 1 2 * m 2 0 - m 1 0 * m 2 2 ∧ m 0 2 = m 1 0 * m 2 1 - m 1 1 * m 2 0 ∧
    m 1 0 = m 0 2 * m 2 1 - m 0 1 * m 2 2 ∧ m 1 1 = m 0 0 * m 2 2 - m 0 2 * m 2 0 ∧ m 1 2 = m 0 1 * m 2 0 - m 0 0 * m 2 1 ∧
    m 2 0 = m 0 1 * m 1 2 - m 0 2 * m 1 1 ∧ m 2 1 = m 0 2 * m 1 0 - m 0 0 * m 1 2 ∧ m 2 2 = m 0 0 * m 1 1 - m 0 1 * m 1 0 := by
  have ha := h.adj
  have e : ∀ i j, mᵀ i j = m.adjugate i j := by intro i j; rw [ha]
  simp only [adjugate_fin_three, Matrix.transpose_apply] at e
  refine ⟨?_, ?_, ?_, ?_, ?_, ?_, ?_, ?_, ?_⟩
  · have := e 0 0; simp at this; linarith
  · have := e 1 0; simp at this; linarith
  · have := e 2 0; simp at this; linarith
  · have := e 0 1; simp at this; linarith
  · have := e 1 1; simp at this; linarith
  · have := e 2 1; simp at this; linarith
  · have := e 0 2; simp at this; linarith
  · have := e 1 2; simp at this; linarith
  · have := e 2 2; simp at this; linarith

end SO3

/-- The array of a quaternion given by its components. -/
def qArr (w x y z : ℝ) : Matrix (Fin 3) (Fin 3) ℝ :=
  !![1 - 2 * (y * y + z * z), 2 * (x * y - z * w), 2 * (x * z + y * w);
     2 * (x * y + z * w), 1 - 2 * (x * x + z * z), 2 * (y * z - x * w);
     2 * (x * z - y * w), 2 * (y * z + x * w), 1 - 2 * (x * x + y * y)]

theorem quatArr_eq (q : Quat) : RotMat.quatArr q = qArr q.w (q.vec.elem 0) (q.vec.elem 1) (q.vec.elem 2) := rfl

/-- Componentwise equality of 3 by 3 matrices. -/
theorem ext9 {a b : Matrix (Fin 3) (Fin 3) ℝ} (h00 : a 0 0 = b 0 0) (h01 : a 0 1 = b 0 1) (h02 : a 0 2 = b 0 2)
    (h10 : a 1 0 = b 1 0) (h11 : a 1 1 = b 1 1) (h12 : a 1 2 = b 1 2)
    (h20 : a 2 0 = b 2 0) (h21 : a 2 1 = b 2 1) (h22 : a 2 2 = b 2 2) : a = b := by
  ext i j; fin_cases i <;> fin_cases j <;> assumption

theorem qArr_so3 {w x y z : ℝ} (hu : w ^ 2 + x ^ 2 + y ^ 2 + z ^ 2 = 1) : SO3 (qArr w x y z) := by
  constructor
  · apply ext9 <;> rw [Matrix.mul_apply, Fin.sum_univ_three] <;> simp [qArr]
    · linear_combination (4 * (y ^ 2 + z ^ 2)) * hu
    · linear_combination (-4 * x * y) * hu
    · linear_combination (-4 * x * z) * hu
    · linear_combination (-4 * x * y) * hu
    · linear_combination (4 * (x ^ 2 + z ^ 2)) * hu
    · linear_combination (-4 * y * z) * hu
    · linear_combination (-4 * x * z) * hu
    · linear_combination (-4 * y * z) * hu
    · linear_combination (4 * (x ^ 2 + y ^ 2)) * hu
  · rw [det_fin_three]; simp [qArr]
    linear_combination (4 * (x ^ 2 + y ^ 2 + z ^ 2)) * hu

/-! ### From a matrix to a quaternion -/

theorem sum_diag (m : Matrix (Fin 3) (Fin 3) ℝ) : ∑ i, m i i = m 0 0 + m 1 1 + m 2 2 := Fin.sum_univ_three _

/-- Components for positive trace. -/
theorem fromMatrix_pos {m : Matrix (Fin 3) (Fin 3) ℝ} (ht : 0 < m 0 0 + m 1 1 + m 2 2) :
    let s := Real.sqrt (m 0 0 + m 1 1 + m 2 2 + 1)
    Quat.fromMatrixComponents m =
      (s / 2, ![(m 2 1 - m 1 2) / (2 * s), (m 0 2 - m 2 0) / (2 * s), (m 1 0 - m 0 1) / (2 * s)]) := by
  intro s
  unfold Quat.fromMatrixComponents
  rw [sum_diag]
  simp only [gt_iff_lt, ht, if_true]
  have e : ∀ a : ℝ, a * (0.5 / s) = a / (2 * s) := by
    intro a
    rw [show (0.5 : ℝ) = 1 / 2 by norm_num, div_div, mul_one_div]
  simp only [show Real.sqrt (m 0 0 + m 1 1 + m 2 2 + 1) = s from rfl, e]

/-- Squares and products of the symmetric and antisymmetric parts. -/
structure Parts (m : Matrix (Fin 3) (Fin 3) ℝ) : Prop where
  p0 : (m 2 1 - m 1 2) ^ 2 = (1 + m 0 0 - m 1 1 - m 2 2) * (m 0 0 + m 1 1 + m 2 2 + 1)
  p1 : (m 0 2 - m 2 0) ^ 2 = (1 + m 1 1 - m 0 0 - m 2 2) * (m 0 0 + m 1 1 + m 2 2 + 1)
  p2 : (m 1 0 - m 0 1) ^ 2 = (1 + m 2 2 - m 0 0 - m 1 1) * (m 0 0 + m 1 1 + m 2 2 + 1)
  q01 : (m 2 1 - m 1 2) * (m 0 2 - m 2 0) = (m 0 1 + m 1 0) * (m 0 0 + m 1 1 + m 2 2 + 1)
  q02 : (m 2 1 - m 1 2) * (m 1 0 - m 0 1) = (m 0 2 + m 2 0) * (m 0 0 + m 1 1 + m 2 2 + 1)
  q12 : (m 0 2 - m 2 0) * (m 1 0 - m 0 1) = (m 1 2 + m 2 1) * (m 0 0 + m 1 1 + m 2 2 + 1)
  s01 : (m 0 1 + m 1 0) ^ 2 = (1 + m 0 0 - m 1 1 - m 2 2) * (1 + m 1 1 - m 0 0 - m 2 2)
  s02 : (m 0 2 + m 2 0) ^ 2 = (1 + m 0 0 - m 1 1 - m 2 2) * (1 + m 2 2 - m 0 0 - m 1 1)
  s12 : (m 1 2 + m 2 1) ^ 2 = (1 + m 1 1 - m 0 0 - m 2 2) * (1 + m 2 2 - m 0 0 - m 1 1)
  t0 : (m 0 1 + m 1 0) * (m 0 2 + m 2 0) = (m 1 2 + m 2 1) * (1 + m 0 0 - m 1 1 - m 2 2)
  t1 : (m 0 1 + m 1 0) * (m 1 2 + m 2 1) = (m 0 2 + m 2 0) * (1 + m 1 1 - m 0 0 - m 2 2)
  t2 : (m 0 2 + m 2 0) * (m 1 2 + m 2 1) = (m 0 1 + m 1 0) * (1 + m 2 2 - m 0 0 - m 1 1)
  u01 : (m 2 1 - m 1 2) * (m 0 1 + m 1 0) = (m 0 2 - m 2 0) * (1 + m 0 0 - m 1 1 - m 2 2)
  u02 : (m 2 1 - m 1 2) * (m 0 2 + m 2 0) = (m 1 0 - m 0 1) * (1 + m 0 0 - m 1 1 - m 2 2)
  u10 : (m 0 2 - m 2 0) * (m 0 1 + m 1 0) = (m 2 1 - m 1 2) * (1 + m 1 1 - m 0 0 - m 2 2)
  u12 : (m 0 2 - m 2 0) * (m 1 2 + m 2 1) = (m 1 0 - m 0 1) * (1 + m 1 1 - m 0 0 - m 2 2)
  u20 : (m 1 0 - m 0 1) * (m 0 2 + m 2 0) = (m 2 1 - m 1 2) * (1 + m 2 2 - m 0 0 - m 1 1)
  u21 : (m 1 0 - m 0 1) * (m 1 2 + m 2 1) = (m 0 2 - m 2 0) * (1 + m 2 2 - m 0 0 - m 1 1)

theorem SO3.parts {m : Matrix (Fin 3) (Fin 3) ℝ} (h : SO3 m) : Parts m := by
  obtain ⟨k00, k01, k02, k10, k11, k12, k20, k21, k22⟩ := h.cof
  have r00 := h.row 0 0; have r11 := h.row 1 1; have r22 := h.row 2 2
  have r01 := h.row 0 1; have r02 := h.row 0 2; have r12 := h.row 1 2
  have l00 := h.col 0 0; have l11 := h.col 1 1; have l22 := h.col 2 2
  have l01 := h.col 0 1; have l02 := h.col 0 2; have l12 := h.col 1 2
  simp only [if_true, Fin.isValue] at r00 r11 r22 l00 l11 l22
  simp only [Fin.isValue, show ((0 : Fin 3) = 1) = False by simp, show ((0 : Fin 3) = 2) = False by simp,
    show ((1 : Fin 3) = 2) = False by simp, if_false] at r01 r02 r12 l01 l02 l12
  constructor
  · linear_combination (-1) * l00 + (1) * r11 + (1) * r22 + (-2) * k00
  · linear_combination (1) * r00 + (-1) * l11 + (1) * r22 + (-2) * k11
  · linear_combination (1) * l00 + (1) * l11 + (-1) * r22 + (-2) * k22
  · linear_combination (-1) * r01 + (-1) * l01 + (-1) * k01 + (-1) * k10
  · linear_combination (-1) * r02 + (-1) * l02 + (-1) * k02 + (-1) * k20
  · linear_combination (-1) * r12 + (-1) * l12 + (-1) * k12 + (-1) * k21
  · linear_combination (1) * l00 + (1) * l11 + (-1) * r22 + (2) * k22
  · linear_combination (1) * r00 + (-1) * l11 + (1) * r22 + (2) * k11
  · linear_combination (-1) * l00 + (1) * r11 + (1) * r22 + (2) * k00
  · linear_combination (1) * r12 + (1) * l12 + (-1) * k12 + (-1) * k21
  · linear_combination (1) * r02 + (1) * l02 + (-1) * k02 + (-1) * k20
  · linear_combination (1) * r01 + (1) * l01 + (-1) * k01 + (-1) * k10
  · linear_combination (1) * r02 + (-1) * l02 + (-1) * k02 + (1) * k20
  · linear_combination (-1) * r01 + (1) * l01 + (1) * k01 + (-1) * k10
  · linear_combination (-1) * r12 + (1) * l12 + (1) * k12 + (-1) * k21
  · linear_combination (1) * r01 + (-1) * l01 + (1) * k01 + (-1) * k10
  · linear_combination (1) * r12 + (-1) * l12 + (1) * k12 + (-1) * k21
  · linear_combination (-1) * r02 + (1) * l02 + (-1) * k02 + (1) * k20

/-- A matrix is recovered from the products of the components of its quaternion. -/
theorem recon {m : Matrix (Fin 3) (Fin 3) ℝ} {w x y z : ℝ}
    (xx : x * x = (1 + m 0 0 - m 1 1 - m 2 2) / 4) (yy : y * y = (1 + m 1 1 - m 0 0 - m 2 2) / 4)
    (zz : z * z = (1 + m 2 2 - m 0 0 - m 1 1) / 4) (ww : w * w = (m 0 0 + m 1 1 + m 2 2 + 1) / 4)
    (xy : x * y = (m 0 1 + m 1 0) / 4) (xz : x * z = (m 0 2 + m 2 0) / 4) (yz : y * z = (m 1 2 + m 2 1) / 4)
    (xw : x * w = (m 2 1 - m 1 2) / 4) (yw : y * w = (m 0 2 - m 2 0) / 4) (zw : z * w = (m 1 0 - m 0 1) / 4) :
    qArr w x y z = m ∧ w ^ 2 + x ^ 2 + y ^ 2 + z ^ 2 = 1 := by
  constructor
  · apply ext9 <;> simp [qArr] <;> linarith
  · simp only [pow_two]; linarith

theorem half_half {a b c s : ℝ} (hs : s ≠ 0) (h : a * b = c * s ^ 2) : a / (2 * s) * (b / (2 * s)) = c / 4 := by
  rw [div_mul_div_comm, h]; field_simp; norm_num

theorem half_w {a s : ℝ} (hs : s ≠ 0) : a / (2 * s) * (s / 2) = a / 4 := by field_simp; ring

theorem w_half {a s : ℝ} (hs : s ≠ 0) : s / 2 * (a / (2 * s)) = a / 4 := by rw [mul_comm]; exact half_w hs

/-- For positive trace the conversion is right. -/
theorem qArr_fromMatrix {m : Matrix (Fin 3) (Fin 3) ℝ} (h : SO3 m) (ht : 0 < m 0 0 + m 1 1 + m 2 2) :
    let c := Quat.fromMatrixComponents m
    0 < c.1 ∧ qArr c.1 (c.2 0) (c.2 1) (c.2 2) = m ∧ c.1 ^ 2 + c.2 0 ^ 2 + c.2 1 ^ 2 + c.2 2 ^ 2 = 1 := by
  intro c
  have hc : c = _ := fromMatrix_pos ht
  set s := Real.sqrt (m 0 0 + m 1 1 + m 2 2 + 1) with hs
  have hs2 : s ^ 2 = m 0 0 + m 1 1 + m 2 2 + 1 := Real.sq_sqrt (by linarith)
  have hs0 : 0 < s := Real.sqrt_pos.2 (by linarith)
  have P := h.parts
  refine ⟨by rw [hc]; positivity, ?_⟩
  have e0 : c.2 0 = (m 2 1 - m 1 2) / (2 * s) := by rw [hc]; rfl
  have e1 : c.2 1 = (m 0 2 - m 2 0) / (2 * s) := by rw [hc]; rfl
  have e2 : c.2 2 = (m 1 0 - m 0 1) / (2 * s) := by rw [hc]; rfl
  have ew : c.1 = s / 2 := by rw [hc]
  rw [e0, e1, e2, ew]
  apply recon
  · exact half_half hs0.ne' (by rw [hs2, ← P.p0]; ring)
  · exact half_half hs0.ne' (by rw [hs2, ← P.p1]; ring)
  · exact half_half hs0.ne' (by rw [hs2, ← P.p2]; ring)
  · rw [← hs2]; ring
  · exact half_half hs0.ne' (by rw [hs2, ← P.q01])
  · exact half_half hs0.ne' (by rw [hs2, ← P.q02])
  · exact half_half hs0.ne' (by rw [hs2, ← P.q12])
  · exact half_w hs0.ne'
  · exact half_w hs0.ne'
  · exact half_w hs0.ne'

/-- The index chosen for non-positive trace. -/
noncomputable def bigDiag (m : Matrix (Fin 3) (Fin 3) ℝ) : Fin 3 :=
  let i : Fin 3 := if m 1 1 > m 0 0 then 1 else 0
  if m 2 2 > m i i then 2 else i

theorem bigDiag_max (m : Matrix (Fin 3) (Fin 3) ℝ) (i : Fin 3) : m i i ≤ m (bigDiag m) (bigDiag m) := by
  unfold bigDiag
  by_cases h1 : m 1 1 > m 0 0 <;> simp only [h1, if_true, if_false]
  · by_cases h2 : m 2 2 > m 1 1 <;> simp only [h2, if_true, if_false] <;> fin_cases i <;>
      simp only [Fin.zero_eta, Fin.mk_one, Fin.reduceFinMk] <;> linarith
  · by_cases h2 : m 2 2 > m 0 0 <;> simp only [h2, if_true, if_false] <;> fin_cases i <;>
      simp only [Fin.zero_eta, Fin.mk_one, Fin.reduceFinMk] <;> linarith

theorem fromMatrix_neg {m : Matrix (Fin 3) (Fin 3) ℝ} (ht : ¬ 0 < m 0 0 + m 1 1 + m 2 2) :
    let i := bigDiag m
    let j := i + 1
    let k := j + 1
    let s := Real.sqrt (1 + m i i - m j j - m k k)
    Quat.fromMatrixComponents m = ((m k j - m j k) / (2 * s), fun l =>
      if l = i then -(s / 2) else if l = j then (m i j + m j i) / (2 * s) else (m i k + m k i) / (2 * s)) := by
  intro i j k s
  unfold Quat.fromMatrixComponents
  rw [sum_diag]
  simp only [gt_iff_lt, ht, if_false]
  have e : ∀ a : ℝ, a * (0.5 / s) = a / (2 * s) := by
    intro a
    rw [show (0.5 : ℝ) = 1 / 2 by norm_num, div_div, mul_one_div]
  have e' : s * 0.5 = s / 2 := by rw [show (0.5 : ℝ) = 1 / 2 by norm_num]; ring
  rw [← e, ← e, ← e, ← e']
  rfl

theorem bigDiag_root {m : Matrix (Fin 3) (Fin 3) ℝ} (ht : ¬ 0 < m 0 0 + m 1 1 + m 2 2) (i : Fin 3) (hi : i = bigDiag m) :
    1 ≤ 1 + m i i - m (i + 1) (i + 1) - m (i + 1 + 1) (i + 1 + 1) := by
  have h0 := bigDiag_max m 0
  have h1 := bigDiag_max m 1
  have h2 := bigDiag_max m 2
  rw [← hi] at h0 h1 h2
  push Not at ht
  clear hi
  fin_cases i
  · simp only [Fin.zero_eta, Fin.isValue] at *; change 1 ≤ 1 + m 0 0 - m 1 1 - m 2 2; linarith
  · simp only [Fin.mk_one, Fin.isValue] at *; change 1 ≤ 1 + m 1 1 - m 2 2 - m 0 0; linarith
  · simp only [Fin.reduceFinMk, Fin.isValue] at *; change 1 ≤ 1 + m 2 2 - m 0 0 - m 1 1; linarith

/-- For non-positive trace the conversion is right up to the sign of one component. -/
theorem qArr_fromMatrix_neg {m : Matrix (Fin 3) (Fin 3) ℝ} (h : SO3 m) (ht : ¬ 0 < m 0 0 + m 1 1 + m 2 2) :
    let c := Quat.fromMatrixComponents m
    let v := Function.update c.2 (bigDiag m) (-c.2 (bigDiag m))
    0 < v (bigDiag m) ∧ qArr c.1 (v 0) (v 1) (v 2) = m ∧ c.1 ^ 2 + v 0 ^ 2 + v 1 ^ 2 + v 2 ^ 2 = 1 := by
  intro c v
  have hc : c = _ := fromMatrix_neg ht
  have hr := bigDiag_root ht _ rfl
  have P := h.parts
  simp only [v, hc]
  generalize bigDiag m = i at hr ⊢
  set s := Real.sqrt (1 + m i i - m (i + 1) (i + 1) - m (i + 1 + 1) (i + 1 + 1)) with hs
  have hs2 : s ^ 2 = 1 + m i i - m (i + 1) (i + 1) - m (i + 1 + 1) (i + 1 + 1) := Real.sq_sqrt (by linarith)
  have hs0 : 0 < s := Real.sqrt_pos.2 (by linarith)
  have hs1 := hs0.ne'
  refine ⟨by simp; exact hs0, ?_⟩
  clear_value s
  fin_cases i
  · change s ^ 2 = 1 + m 0 0 - m 1 1 - m 2 2 at hs2
    simp only [Fin.zero_eta, Fin.isValue, zero_add, if_true, neg_neg, Function.update_self,
      show (1 : Fin 3) + 1 = 2 from rfl, Function.update_of_ne (show (1 : Fin 3) ≠ 0 by decide),
      Function.update_of_ne (show (2 : Fin 3) ≠ 0 by decide), if_neg (show ¬ (1 : Fin 3) = 0 by decide),
      if_neg (show ¬ (2 : Fin 3) = 0 by decide), if_neg (show ¬ (2 : Fin 3) = 1 by decide)]
    apply recon
    · rw [← hs2]; ring
    · exact half_half hs1 (by rw [hs2]; linear_combination P.s01)
    · exact half_half hs1 (by rw [hs2]; linear_combination P.s02)
    · exact half_half hs1 (by rw [hs2]; linear_combination P.p0)
    · exact w_half hs1
    · exact w_half hs1
    · exact half_half hs1 (by rw [hs2]; linear_combination P.t0)
    · exact w_half hs1
    · exact half_half hs1 (by rw [hs2]; linear_combination P.u01)
    · exact half_half hs1 (by rw [hs2]; linear_combination P.u02)
  · change s ^ 2 = 1 + m 1 1 - m 2 2 - m 0 0 at hs2
    simp only [Fin.mk_one, Fin.isValue, if_true, neg_neg, Function.update_self,
      show (1 : Fin 3) + 1 = 2 from rfl, show (2 : Fin 3) + 1 = 0 from rfl,
      Function.update_of_ne (show (0 : Fin 3) ≠ 1 by decide),
      Function.update_of_ne (show (2 : Fin 3) ≠ 1 by decide), if_neg (show ¬ (0 : Fin 3) = 1 by decide),
      if_neg (show ¬ (2 : Fin 3) = 1 by decide), if_neg (show ¬ (0 : Fin 3) = 2 by decide)]
    apply recon
    · exact half_half hs1 (by rw [hs2]; linear_combination P.s01)
    · rw [show 1 + m 1 1 - m 0 0 - m 2 2 = s ^ 2 by rw [hs2]; ring]; ring
    · exact half_half hs1 (by rw [hs2]; linear_combination P.s12)
    · exact half_half hs1 (by rw [hs2]; linear_combination P.p1)
    · rw [half_w hs1]; ring
    · exact half_half hs1 (by rw [hs2]; linear_combination P.t1)
    · rw [w_half hs1]
    · exact half_half hs1 (by rw [hs2]; linear_combination P.u10)
    · exact w_half hs1
    · exact half_half hs1 (by rw [hs2]; linear_combination P.u12)
  · change s ^ 2 = 1 + m 2 2 - m 0 0 - m 1 1 at hs2
    simp only [Fin.reduceFinMk, Fin.isValue, if_true, neg_neg, Function.update_self,
      show (2 : Fin 3) + 1 = 0 from rfl, zero_add,
      Function.update_of_ne (show (0 : Fin 3) ≠ 2 by decide),
      Function.update_of_ne (show (1 : Fin 3) ≠ 2 by decide), if_neg (show ¬ (0 : Fin 3) = 2 by decide),
      if_neg (show ¬ (1 : Fin 3) = 2 by decide), if_neg (show ¬ (1 : Fin 3) = 0 by decide)]
    apply recon
    · exact half_half hs1 (by rw [hs2]; linear_combination P.s02)
    · exact half_half hs1 (by rw [hs2]; linear_combination P.s12)
    · rw [← hs2]; ring
    · exact half_half hs1 (by rw [hs2]; linear_combination P.p2)
    · exact half_half hs1 (by rw [hs2]; linear_combination P.t2)
    · rw [half_w hs1]; ring
    · rw [half_w hs1]; ring
    · exact half_half hs1 (by rw [hs2]; linear_combination P.u20)
    · exact half_half hs1 (by rw [hs2]; linear_combination P.u21)
    · exact w_half hs1

theorem four_sq {a b c d : ℝ} (h : a ^ 2 + b ^ 2 + c ^ 2 + d ^ 2 = 0) : a = 0 ∧ b = 0 ∧ c = 0 ∧ d = 0 := by
  have ha := sq_nonneg a
  have hb := sq_nonneg b
  have hc := sq_nonneg c
  have hd := sq_nonneg d
  exact ⟨pow_eq_zero_iff two_ne_zero |>.1 (by linarith), pow_eq_zero_iff two_ne_zero |>.1 (by linarith),
    pow_eq_zero_iff two_ne_zero |>.1 (by linarith), pow_eq_zero_iff two_ne_zero |>.1 (by linarith)⟩

/-- A unit quaternion is determined by its matrix up to sign. -/
theorem qArr_inj {w x y z w' x' y' z' : ℝ} (hu : w ^ 2 + x ^ 2 + y ^ 2 + z ^ 2 = 1)
    (hu' : w' ^ 2 + x' ^ 2 + y' ^ 2 + z' ^ 2 = 1) (h : qArr w x y z = qArr w' x' y' z') :
    (w = w' ∧ x = x' ∧ y = y' ∧ z = z') ∨ (w = -w' ∧ x = -x' ∧ y = -y' ∧ z = -z') := by
  have e : ∀ i j, qArr w x y z i j = qArr w' x' y' z' i j := by intro i j; rw [h]
  have e00 := e 0 0; have e01 := e 0 1; have e02 := e 0 2
  have e10 := e 1 0; have e11 := e 1 1; have e12 := e 1 2
  have e20 := e 2 0; have e21 := e 2 1; have e22 := e 2 2
  simp [qArr] at e00 e01 e02 e10 e11 e12 e20 e21 e22
  have xy : x * y = x' * y' := by linarith
  have xz : x * z = x' * z' := by linarith
  have yz : y * z = y' * z' := by linarith
  have xw : x * w = x' * w' := by linarith
  have yw : y * w = y' * w' := by linarith
  have zw : z * w = z' * w' := by linarith
  have xx : x * x = x' * x' := by linarith
  have yy : y * y = y' * y' := by linarith
  have zz : z * z = z' * z' := by linarith
  have ww : w * w = w' * w' := by nlinarith
  -- the inner product of the two quaternions is 1 or -1
  have key : (w * w' + x * x' + y * y' + z * z') ^ 2 = 1 := by
    have : (w * w' + x * x' + y * y' + z * z') ^ 2 = (w ^ 2 + x ^ 2 + y ^ 2 + z ^ 2) ^ 2 := by
      linear_combination (-(w * w)) * ww - (x * x) * xx - (y * y) * yy - (z * z) * zz - 2 * (x * y) * xy - 2 * (x * z) * xz
        - 2 * (y * z) * yz - 2 * (x * w) * xw - 2 * (y * w) * yw - 2 * (z * w) * zw
    rw [this, hu]; norm_num
  rcases sq_eq_one_iff_of_side key with hk | hk
  · left
    have hz : (w - w') ^ 2 + (x - x') ^ 2 + (y - y') ^ 2 + (z - z') ^ 2 = 0 := by linear_combination hu + hu' - 2 * hk
    obtain ⟨h1, h2, h3, h4⟩ := four_sq hz
    exact ⟨by linarith, by linarith, by linarith, by linarith⟩
  · right
    have hz : (w + w') ^ 2 + (x + x') ^ 2 + (y + y') ^ 2 + (z + z') ^ 2 = 0 := by linear_combination hu + hu' + 2 * hk
    obtain ⟨h1, h2, h3, h4⟩ := four_sq hz
    exact ⟨by linarith, by linarith, by linarith, by linarith⟩
where
  sq_eq_one_iff_of_side {t : ℝ} (h : t ^ 2 = 1) : t = 1 ∨ t = -1 := by
    have h2 : (t - 1) * (t + 1) = 0 := by linear_combination h
    rcases mul_eq_zero.1 h2 with h | h
    · left; linarith
    · right; linarith

end WFMath
